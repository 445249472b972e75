import Verif.Lemmas.DistReduce
/-
Distributed algorithms seen globally: the matrices as matrices of tiles, and the panels of the processes by global tile.
-/
namespace DLAF
variable {K : Type*}

theorem Tiled.mem_nx {p : Params} (hp : Tiled p) {s e i : Int} (hs : 0 ≤ s) (he : 0 ≤ e) : (p.nx s ≤ i ∧ i < p.nx e) ↔ 0 ≤ i ∧ s ≤ p.gl i ∧ p.gl i < e := by
  constructor
  · rintro ⟨h1, h2⟩
    have h0 := hp.nx_nonneg hs
    have hi : 0 ≤ i := by omega
    refine ⟨hi, ?_, (hp.lt_nx hi he).1 h2⟩
    by_contra hc
    have := (hp.lt_nx hi hs).2 (by omega)
    omega
  · rintro ⟨h0, h1, h2⟩
    refine ⟨?_, (hp.lt_nx h0 he).2 h2⟩
    by_contra hc
    have := (hp.lt_nx h0 hs).1 (by omega)
    omega

/-- What is known about a panel of a process: its extent, its range and its tiles, by global index. -/
structure VP (K : Type*) where
  ax : Int
  s : Int
  e : Int
  W : Int → Option (Blk K)

/-- The panel by local index. -/
def VP.loc (p : Params) (v : VP K) : PanD K := ⟨v.ax, v.s, v.e, fun i => if p.nx v.s ≤ i ∧ i < p.nx v.e then v.W (p.gl i) else none⟩

theorem VP.loc_content {p : Params} {ax s e : Int} (W : Int → Blk K) : (⟨ax, s, e, fun t => some (W t)⟩ : VP K).loc p = ⟨ax, s, e, content p s e W⟩ := rfl

theorem VP.loc_none {p : Params} {ax s e : Int} : (⟨ax, s, e, fun _ => none⟩ : VP K).loc p = ⟨ax, s, e, fun _ => none⟩ := by
  unfold VP.loc
  simp

/-- The matrices, and the panels of the processes. -/
structure GV (K : Type*) where
  mat : Nat → Tiles K
  pan : Coord2 → Nat → VP K

/-- The panels of an algorithm and the distributions of its matrices. -/
structure VEnv where
  E : DEnv
  Q : Nat → Params2

structure VEnv.OK (V : VEnv) : Prop where
  env : V.E.OK
  plain : ∀ n c, Plain ((V.Q n).get c)
  ranks : ∀ n, (V.Q n).ranks = V.E.G

theorem VEnv.OK.at' {V : VEnv} (h : V.OK) (n : Nat) (c : Coord) {r : Coord2} (hr : r ∈ V.E.G) : Plain ((V.Q n).at' c r) :=
  Params2.plain (h.plain n c) (h.ranks n ▸ hr)

/-- The global tile of a local one. -/
def VEnv.g (V : VEnv) (n : Nat) (r z : Coord2) : Nat × Nat := ((((V.Q n).at' .Row r).gl z.row).toNat, (((V.Q n).at' .Col r).gl z.col).toNat)

/-- `z` is a local tile of matrix `n` on process `r`. -/
def VEnv.In (V : VEnv) (n : Nat) (r z : Coord2) : Prop :=
  (0 ≤ z.row ∧ z.row < ((V.Q n).at' .Row r).dist.localNrTiles) ∧ 0 ≤ z.col ∧ z.col < ((V.Q n).at' .Col r).dist.localNrTiles

theorem VEnv.OK.g_inj {V : VEnv} (h : V.OK) {n : Nat} {r y z : Coord2} (hr : r ∈ V.E.G) (hy : V.In n r y) (hz : V.In n r z)
    (e : V.g n r y = V.g n r z) : y = z := by
  have pr := h.at' n .Row hr
  have pc := h.at' n .Col hr
  have a1 := pr.gl_nonneg hy.1.1
  have a2 := pr.gl_nonneg hz.1.1
  have b1 := pc.gl_nonneg hy.2.1
  have b2 := pc.gl_nonneg hz.2.1
  unfold VEnv.g at e
  simp only [Prod.mk.injEq] at e
  have e1 := pr.gl_inj hy.1.1 hz.1.1 (by omega)
  have e2 := pc.gl_inj hy.2.1 hz.2.1 (by omega)
  exact coord_ext (axis := .Row) e1 e2

/-- Process `r` in state `x` holds its part of `v`. -/
structure VInv (V : VEnv) (r : Coord2) (w : Bool) (v : GV K) (x : DSt K) : Prop where
  inv : PInv V.E r w ⟨x.mat, fun n => (v.pan r n).loc (V.E.crd n r)⟩ x
  mat : ∀ n z, V.In n r z → x.mat n z = v.mat n (V.g n r z)

/-- `v` and `v'` agree on what process `r` holds. -/
structure GV.Same (V : VEnv) (r : Coord2) (v v' : GV K) : Prop where
  mat : ∀ n z, V.In n r z → v.mat n (V.g n r z) = v'.mat n (V.g n r z)
  pan : ∀ n, (v.pan r n).loc (V.E.crd n r) = (v'.pan r n).loc (V.E.crd n r)

theorem VInv.congr {V : VEnv} {r : Coord2} {w : Bool} {v v' : GV K} {x : DSt K} (h : VInv V r w v x) (hs : GV.Same V r v v') : VInv V r w v' x := by
  refine ⟨?_, fun n z hz => (h.mat n z hz).trans (hs.mat n z hz)⟩
  have e : (fun n => (v'.pan r n).loc (V.E.crd n r)) = fun n => (v.pan r n).loc (V.E.crd n r) := funext fun n => (hs.pan n).symm
  rw [e]
  exact h.inv

/-- Replace a tile of a matrix. -/
def GV.setT (v : GV K) (n : Nat) (t : Nat × Nat) (b : Blk K) : GV K := { v with mat := set1 v.mat n (set1 (v.mat n) t b) }
/-- Replace a panel of a process. -/
def GV.setP (v : GV K) (r : Coord2) (n : Nat) (d : VP K) : GV K := { v with pan := set1 v.pan r (set1 (v.pan r) n d) }
/-- Replace a tile of a panel. -/
def GV.setW (v : GV K) (r : Coord2) (n : Nat) (t : Int) (b : Blk K) : GV K :=
  v.setP r n ⟨(v.pan r n).ax, (v.pan r n).s, (v.pan r n).e, set1 (v.pan r n).W t (some b)⟩
/-- Replace a matrix. -/
def GV.setM (v : GV K) (n : Nat) (m : Tiles K) : GV K := { v with mat := set1 v.mat n m }

/-- Local work. -/
def VF (V : VEnv) (r : Coord2) (w : Bool) (f : DSt K → Option (DSt K)) (v v' : GV K) : Prop :=
  ∀ x, VInv V r w v x → ∃ x', f x = some x' ∧ VInv V r w v' x'

def VL (V : VEnv) (r : Coord2) (w : Bool) (fs : List (DSt K → Option (DSt K))) (v v' : GV K) : Prop :=
  ∀ x, VInv V r w v x → ∃ x', runLocs fs x = some x' ∧ VInv V r w v' x'

section
variable {V : VEnv} {r : Coord2} {w : Bool} {a b c : GV K}

theorem VL.nil (a : GV K) : VL V r w [] a a := fun x h => ⟨x, rfl, h⟩

theorem VL.append {fs gs : List (DSt K → Option (DSt K))} (h : VL V r w fs a b) (h' : VL V r w gs b c) : VL V r w (fs ++ gs) a c := by
  intro x hx
  obtain ⟨y, e1, hy⟩ := h x hx
  obtain ⟨z, e2, hz⟩ := h' y hy
  exact ⟨z, by rw [runLocs_append, e1]; exact e2, hz⟩

theorem VF.one {f : DSt K → Option (DSt K)} (h : VF V r w f a b) : VL V r w [f] a b := by
  intro x hx
  rw [runLocs_one]
  exact h x hx

theorem VL.cons {f : DSt K → Option (DSt K)} {gs : List (DSt K → Option (DSt K))} (h : VF V r w f a b) (h' : VL V r w gs b c) :
    VL V r w (f :: gs) a c := h.one.append h'

theorem VL.to {fs : List (DSt K → Option (DSt K))} (h : VL V r w fs a b) (e : GV.Same V r b c) : VL V r w fs a c := by
  intro x hx
  obtain ⟨y, e1, hy⟩ := h x hx
  exact ⟨y, e1, hy.congr e⟩

theorem VF.to {f : DSt K → Option (DSt K)} (h : VF V r w f a b) (e : GV.Same V r b c) : VF V r w f a c := by
  intro x hx
  obtain ⟨y, e1, hy⟩ := h x hx
  exact ⟨y, e1, hy.congr e⟩

theorem GV.Same.refl (v : GV K) : GV.Same V r v v := ⟨fun _ _ _ => rfl, fun _ => rfl⟩
theorem GV.Same.symm {v v' : GV K} (h : GV.Same V r v v') : GV.Same V r v' v := ⟨fun n z hz => (h.mat n z hz).symm, fun n => (h.pan n).symm⟩

theorem VL.ite {P : Prop} [Decidable P] {fs gs : List (DSt K → Option (DSt K))} (h1 : P → VL V r w fs a b) (h2 : ¬ P → VL V r w gs a b) :
    VL V r w (if P then fs else gs) a b := by
  split
  · rename_i h; exact h1 h
  · rename_i h; exact h2 h

theorem VL.list {X : Type*} (xs : List X) (ops : X → List (DSt K → Option (DSt K))) (A : List X → GV K)
    (h : ∀ pre x post, xs = pre ++ x :: post → VL V r w (ops x) (A pre) (A (pre ++ [x]))) :
    VL V r w (xs.flatMap ops) (A []) (A xs) := by
  suffices H : ∀ post pre, xs = pre ++ post → VL V r w (post.flatMap ops) (A pre) (A xs) from H xs [] rfl
  intro post
  induction post with
  | nil =>
    intro pre e
    rw [e, List.append_nil]
    exact .nil _
  | cons x post ih =>
    intro pre e
    rw [List.flatMap_cons]
    exact (h pre x post e).append (ih (pre ++ [x]) (by rw [e, List.append_assoc]; rfl))

/-! ### Primitive steps -/

theorem VF.task (hV : V.OK) (hr : r ∈ V.E.G) {n : Nat} {idx : Coord2} (hi : V.In n r idx) {f : Blk K → Option (Blk K)} {b : Blk K}
    (hf : f (a.mat n (V.g n r idx)) = some b) : VF V r w (DSt.task n idx f) a (a.setT n (V.g n r idx) b) := by
  intro x hx
  obtain ⟨x', e, h'⟩ := hx.inv.task (n := n) (idx := idx) (f := f) (v := b) (by
    show f (x.mat n idx) = _
    rw [hx.mat n idx hi]; exact hf)
  refine ⟨x', e, ?_, ?_⟩
  · have h2 := h'.mat
    rw [h2]
    exact h'
  · intro q z hz
    rw [h'.mat]
    show set1 x.mat n (set1 (x.mat n) idx b) q z = set1 a.mat n (set1 (a.mat n) (V.g n r idx) b) q (V.g q r z)
    by_cases hq : q = n
    · subst hq
      rw [set1_same, set1_same]
      unfold set1
      by_cases hzi : z = idx
      · subst hzi; rw [if_pos rfl, if_pos rfl]
      · rw [if_neg hzi, if_neg (fun hc => hzi (hV.g_inj hr hz hi hc))]
        exact hx.mat q z hz
    · rw [set1_ne _ _ hq, set1_ne _ _ hq]
      exact hx.mat q z hz

/-- Reading the tile of a panel. -/
theorem VF.read (hV : V.OK) (hr : r ∈ V.E.G) {it : Int} {n : Nat} {dbg : Bool} {i : Int} {k : Blk K → DSt K → Option (DSt K)}
    (hax : 0 ≤ (a.pan r n).ax) (hs : 0 ≤ (a.pan r n).s) (hi : 0 ≤ i) (h1 : (a.pan r n).s ≤ (V.E.crd n r).gl i) (h2 : (V.E.crd n r).gl i < (a.pan r n).e)
    {b : Blk K} (hb : (a.pan r n).W ((V.E.crd n r).gl i) = some b) (hk : VF V r (rrIdx it) (k b) a c) :
    VF V r (rrIdx it) (fun s => ((DSt.panel n it).read dbg i s).bind fun sa => k sa.2 sa.1) a c := by
  intro x hx
  have hp := hV.env.crd n hr
  have hin : InRange (V.E.crd n r) (a.pan r n).s (a.pan r n).e i := by
    have g0 := hp.gl_nonneg hi
    refine ⟨?_, (hp.lt_nx hi (by omega)).2 h2⟩
    by_contra hc
    have := (hp.lt_nx hi hs).1 (by show i < (V.E.crd n r).dist.next_local_tile_from_global_tile _; omega)
    omega
  obtain ⟨x', e, h'⟩ := hx.inv.read hV.env hr (it := it) (n := n) (dbg := dbg) (i := i) hax hs hin (v := b) (by
    exact (if_pos hin).trans hb)
  have hm : x'.mat = x.mat := h'.mat
  obtain ⟨x2, e2, h2⟩ := hk x' ⟨by rw [hm]; exact h', fun q z hz => by rw [hm]; exact hx.mat q z hz⟩
  exact ⟨x2, by beta_reduce; rw [e]; exact e2, h2⟩

theorem VF.rd (hV : V.OK) (hr : r ∈ V.E.G) {it : Int} {n : Nat} {dbg : Bool} {i : Int} {k : DSt K × Blk K → Option (DSt K)}
    {b : Blk K} (hax : 0 ≤ (a.pan r n).ax) (hs : 0 ≤ (a.pan r n).s) (hi : 0 ≤ i) (h1 : (a.pan r n).s ≤ (V.E.crd n r).gl i) (h2 : (V.E.crd n r).gl i < (a.pan r n).e)
    (hb : (a.pan r n).W ((V.E.crd n r).gl i) = some b) (hk : VF V r (rrIdx it) (fun s => k (s, b)) a c) :
    VF V r (rrIdx it) (fun s => ((DSt.panel n it).read dbg i s).bind k) a c :=
  VF.read hV hr (k := fun b s => k (s, b)) hax hs hi h1 h2 hb hk

/-- Using the tile of a matrix. -/
theorem VF.readMat {n : Nat} {idx : Coord2} (hi : V.In n r idx) {k : Blk K → DSt K → Option (DSt K)}
    (hk : VF V r w (k (a.mat n (V.g n r idx))) a c) : VF V r w (fun s => k (s.mat n idx) s) a c := by
  intro x hx
  obtain ⟨x', e, h⟩ := hk x hx
  exact ⟨x', by show k (x.mat n idx) x = _; rw [hx.mat n idx hi]; exact e, h⟩

theorem VP.loc_set {p : Params} (hp : Tiled p) {d : VP K} {i : Int} (hs : 0 ≤ d.s) (hi : InRange p d.s d.e i) (b : Blk K) :
    (⟨d.ax, d.s, d.e, set1 d.W (p.gl i) (some b)⟩ : VP K).loc p = ⟨d.ax, d.s, d.e, set1 (d.loc p).f i (some b)⟩ := by
  have hi0 : 0 ≤ i := by
    have h1 := hp.nx_nonneg hs
    have h2 : p.nx d.s ≤ i := hi.1
    omega
  unfold VP.loc
  congr 1
  funext j
  unfold set1
  dsimp only
  by_cases hj : j = i
  · subst hj
    rw [if_pos rfl, if_pos rfl]
    exact if_pos hi
  · rw [if_neg hj]
    by_cases hjr : p.nx d.s ≤ j ∧ j < p.nx d.e
    · rw [if_pos hjr, if_pos hjr, if_neg]
      have h1 := hp.nx_nonneg hs
      exact fun hc => hj (hp.gl_inj (by omega) hi0 hc)
    · rw [if_neg hjr, if_neg hjr]

theorem VEnv.OK.inRange (hV : V.OK) (hr : r ∈ V.E.G) {n : Nat} {s e i : Int} (hs : 0 ≤ s) (hi : 0 ≤ i) (h1 : s ≤ (V.E.crd n r).gl i)
    (h2 : (V.E.crd n r).gl i < e) : InRange (V.E.crd n r) s e i := by
  have hp := hV.env.crd n hr
  have g0 := hp.gl_nonneg hi
  refine ⟨?_, (hp.lt_nx hi (by omega)).2 h2⟩
  by_contra hc
  have := (hp.lt_nx hi hs).1 (by show i < (V.E.crd n r).dist.next_local_tile_from_global_tile _; omega)
  omega

/-- A step that changes one panel. -/
theorem VF.panel {n : Nat} {f : DSt K → Option (DSt K)} {d : VP K} {D : PanD K}
    (h : ∀ M : Nat → Coord2 → Blk K, (∀ q z, V.In q r z → M q z = a.mat q (V.g q r z)) →
      LStep V.E r w [f] ⟨M, fun q => (a.pan r q).loc (V.E.crd q r)⟩ (Abs.setPan ⟨M, fun q => (a.pan r q).loc (V.E.crd q r)⟩ n D))
    (hd : d.loc (V.E.crd n r) = D) : VF V r w f a (a.setP r n d) := by
  intro x hx
  obtain ⟨x', e, h'⟩ := h x.mat hx.mat x hx.inv
  rw [runLocs_one] at e
  have hm : x'.mat = x.mat := h'.mat
  refine ⟨x', e, ?_, fun q z hz => by rw [hm]; exact hx.mat q z hz⟩
  have : (⟨x'.mat, fun q => ((a.setP r n d).pan r q).loc (V.E.crd q r)⟩ : Abs K) = Abs.setPan ⟨x.mat, fun q => (a.pan r q).loc (V.E.crd q r)⟩ n D := by
    unfold Abs.setPan GV.setP
    dsimp only
    rw [hm]
    congr 1
    funext q
    rw [set1_same]
    by_cases hq : q = n
    · subst hq; rw [set1_same, set1_same, hd]
    · rw [set1_ne _ _ hq, set1_ne _ _ hq]
  rw [this]
  exact h'

theorem VP.loc_f {p : Params} {d : VP K} (h : d.W = fun _ => none) : (d.loc p).f = fun _ => none := by
  unfold VP.loc
  simp [h]

theorem VF.setDim {it : Int} {n : Nat} {dbg : Bool} {wd : Int} (h0 : 0 < wd) (h1 : wd ≤ V.E.tile n) (hf : (a.pan r n).W = fun _ => none) :
    VF V r (rrIdx it) ((DSt.panel n it).upd fun v => v.setDim dbg wd) a (a.setP r n ⟨wd, (a.pan r n).s, (a.pan r n).e, fun _ => none⟩) := by
  refine VF.panel (D := ⟨wd, (a.pan r n).s, (a.pan r n).e, fun _ => none⟩) (fun M _ => ?_) VP.loc_none
  have := LStep.setDim (r := r) (a := ⟨M, fun q => (a.pan r q).loc (V.E.crd q r)⟩) (n := n) (it := it) (dbg := dbg) h0 h1 (VP.loc_f hf)
  refine this.to ?_
  show _ = Abs.setPan _ n ⟨_, _, _, ((a.pan r n).loc _).f⟩
  rw [VP.loc_f hf]
  rfl

theorem VF.setRangeStart (hV : V.OK) (hr : r ∈ V.E.G) {it : Int} {n : Nat} {dbg : Bool} {s : Int} (h0 : 0 ≤ s) (h1 : s ≤ (a.pan r n).e)
    (hf : (a.pan r n).W = fun _ => none) (hrg : V.E.ranged = true := by rfl) :
    VF V r (rrIdx it) ((DSt.panel n it).upd fun v => v.setRangeStart dbg s) a (a.setP r n ⟨(a.pan r n).ax, s, (a.pan r n).e, fun _ => none⟩) := by
  refine VF.panel (D := ⟨(a.pan r n).ax, s, (a.pan r n).e, fun _ => none⟩) (fun M _ => ?_) VP.loc_none
  have := LStep.setRangeStart hV.env hr (a := ⟨M, fun q => (a.pan r q).loc (V.E.crd q r)⟩) (n := n) (it := it) (dbg := dbg) h0 h1 (VP.loc_f hf) hrg
  refine this.to ?_
  show _ = Abs.setPan _ n ⟨_, _, _, ((a.pan r n).loc _).f⟩
  rw [VP.loc_f hf]
  rfl

theorem VF.setRange (hV : V.OK) (hr : r ∈ V.E.G) {it : Int} {n : Nat} {dbg : Bool} {s e : Int} (h0 : 0 ≤ s) (h1 : s ≤ e)
    (h2 : e ≤ (V.E.crd n r).dist.nrTiles) (hf : (a.pan r n).W = fun _ => none) (hrg : V.E.ranged = true := by rfl) :
    VF V r (rrIdx it) ((DSt.panel n it).upd fun v => v.setRange dbg s e) a (a.setP r n ⟨(a.pan r n).ax, s, e, fun _ => none⟩) := by
  refine VF.panel (D := ⟨(a.pan r n).ax, s, e, fun _ => none⟩) (fun M _ => ?_) VP.loc_none
  have := LStep.setRange hV.env hr (a := ⟨M, fun q => (a.pan r q).loc (V.E.crd q r)⟩) (n := n) (it := it) (dbg := dbg) h0 h1 h2 (VP.loc_f hf) hrg
  refine this.to ?_
  show _ = Abs.setPan _ n ⟨_, _, _, ((a.pan r n).loc _).f⟩
  rw [VP.loc_f hf]
  rfl

theorem VF.reset {it : Int} {n : Nat} :
    VF V r (rrIdx it) ((DSt.panel n it).upd fun v => some v.reset) a (a.setP r n ⟨V.E.tile n, (a.pan r n).s, (a.pan r n).e, fun _ => none⟩) := by
  refine VF.panel (D := ⟨V.E.tile n, (a.pan r n).s, (a.pan r n).e, fun _ => none⟩) (fun M _ => ?_) VP.loc_none
  exact LStep.reset (a := ⟨M, fun q => (a.pan r q).loc (V.E.crd q r)⟩) (n := n) (it := it)

theorem VF.link (hV : V.OK) (hr : r ∈ V.E.G) {it : Int} {n q : Nat} {dbg : Bool} {i : Int} {idx : Coord2} (hq : V.In q r idx)
    (hs : 0 ≤ (a.pan r n).s) (hi : 0 ≤ i) (h1 : (a.pan r n).s ≤ (V.E.crd n r).gl i) (h2 : (V.E.crd n r).gl i < (a.pan r n).e)
    (hf : (a.pan r n).W ((V.E.crd n r).gl i) = none)
    (hb : VPanel.fits (V.E.tall n) (a.mat q (V.g q r idx)) (a.pan r n).ax ((V.E.crd n r).dist.global_tile_size_of ((V.E.crd n r).gl i)) = true)
    (ho : V.E.own n = false) :
    VF V r (rrIdx it) (DSt.link (DSt.panel n it) dbg i q idx) a (a.setW r n ((V.E.crd n r).gl i) (a.mat q (V.g q r idx))) := by
  have hin := hV.inRange hr hs hi h1 h2
  unfold GV.setW
  refine VF.panel (D := ⟨(a.pan r n).ax, (a.pan r n).s, (a.pan r n).e, set1 ((a.pan r n).loc (V.E.crd n r)).f i (some (a.mat q (V.g q r idx)))⟩)
    (fun M hM => ?_) (VP.loc_set (hV.env.crd n hr) (d := a.pan r n) hs hin _)
  have := LStep.link (a := ⟨M, fun q => (a.pan r q).loc (V.E.crd q r)⟩) hV.env hr (it := it) (n := n) (q := q) (dbg := dbg) (i := i) (idx := idx) hs hin (by
    exact (if_pos hin).trans hf) (by
    show VPanel.fits _ (M q idx) _ _ = true
    rw [hM q idx hq]
    exact hb) ho
  have e : M q idx = a.mat q (V.g q r idx) := hM q idx hq
  refine this.to ?_
  show _ = Abs.setPan _ n ⟨_, _, _, set1 _ i (some (M q idx))⟩
  rw [e]
  rfl

theorem VF.set0 [Field K] (hV : V.OK) (hr : r ∈ V.E.G) {it : Int} {n : Nat} {dbg : Bool} {i : Int}
    (hax : 0 ≤ (a.pan r n).ax) (hs : 0 ≤ (a.pan r n).s) (hi : 0 ≤ i) (h1 : (a.pan r n).s ≤ (V.E.crd n r).gl i) (h2 : (V.E.crd n r).gl i < (a.pan r n).e)
    (hz : 0 ≤ (V.E.crd n r).dist.global_tile_size_of ((V.E.crd n r).gl i)) (ho : V.E.own n = true) :
    VF V r (rrIdx it) ((DSt.panel n it).upd fun v => v.set0 dbg i) a (a.setW r n ((V.E.crd n r).gl i)
      (zeroTile (V.E.tall n) (a.pan r n).ax ((V.E.crd n r).dist.global_tile_size_of ((V.E.crd n r).gl i)))) := by
  have hin := hV.inRange hr hs hi h1 h2
  unfold GV.setW
  refine VF.panel (fun M hM => ?_) (VP.loc_set (hV.env.crd n hr) (d := a.pan r n) hs hin _)
  refine LStep.own ho fun v hv hx => ?_
  exact hv.set0 hx (hV.env.crd n hr) hax hs hin hz

theorem VF.modify (hV : V.OK) (hr : r ∈ V.E.G) {it : Int} {n : Nat} {dbg : Bool} {i : Int} {f : Blk K → Option (Blk K)} {b b' : Blk K}
    (hax : 0 ≤ (a.pan r n).ax) (hs : 0 ≤ (a.pan r n).s) (hi : 0 ≤ i) (h1 : (a.pan r n).s ≤ (V.E.crd n r).gl i) (h2 : (V.E.crd n r).gl i < (a.pan r n).e)
    (hb : (a.pan r n).W ((V.E.crd n r).gl i) = some b) (hf : f b = some b')
    (hfit : VPanel.fits (V.E.tall n) b' (a.pan r n).ax ((V.E.crd n r).dist.global_tile_size_of ((V.E.crd n r).gl i)) = true)
    (ho : V.E.own n = true) :
    VF V r (rrIdx it) ((DSt.panel n it).upd fun v => v.modify dbg i f) a (a.setW r n ((V.E.crd n r).gl i) b') := by
  have hin := hV.inRange hr hs hi h1 h2
  unfold GV.setW
  refine VF.panel (fun M hM => ?_) (VP.loc_set (hV.env.crd n hr) (d := a.pan r n) hs hin _)
  refine LStep.own ho fun v hv hx => ?_
  refine hv.modify hx (hV.env.crd n hr) hax hs hin ?_ hf hfit
  exact (if_pos hin).trans hb

/-! ### Loops over tiles -/

/-- Tasks on different tiles of a matrix. -/
theorem VL.tasksL {n : Nat} {X : Type*} (xs : List X) (ops : X → List (DSt K → Option (DSt K))) (pos : X → Nat × Nat) (new : Tiles K)
    (hnd : (xs.map pos).Nodup)
    (hop : ∀ x ∈ xs, ∀ m : Tiles K, m (pos x) = a.mat n (pos x) → VL V r w (ops x) (a.setM n m) ((a.setM n m).setT n (pos x) (new (pos x)))) :
    VL V r w (xs.flatMap ops) a (a.setM n fun t => if t ∈ xs.map pos then new t else a.mat n t) := by
  have key := VL.list (V := V) (r := r) (w := w) xs ops (fun pre => a.setM n fun t => if t ∈ pre.map pos then new t else a.mat n t) (by
    intro pre i post e
    have himem : i ∈ xs := by rw [e]; simp
    have hpre : pos i ∉ pre.map pos := by
      intro hc
      rw [e, List.map_append, List.map_cons] at hnd
      exact (List.nodup_append.1 hnd).2.2 _ hc _ List.mem_cons_self rfl
    have := hop i himem (fun t => if t ∈ pre.map pos then new t else a.mat n t) (if_neg hpre)
    refine this.to ?_
    refine ⟨fun q z _ => ?_, fun _ => rfl⟩
    unfold GV.setT GV.setM
    dsimp only
    rw [set1_set1, set1_same]
    by_cases hq : q = n
    · subst hq
      rw [set1_same, set1_same]
      unfold set1
      by_cases hz : V.g q r z = pos i
      · rw [if_pos hz, if_pos (by rw [hz]; simp), hz]
      · rw [if_neg hz]
        refine if_congr ?_ rfl rfl
        simp [hz]
    · rw [set1_ne _ _ hq, set1_ne _ _ hq])
  simp only [List.map_nil, List.not_mem_nil, if_false] at key
  have e : a.setM n (fun t => a.mat n t) = a := by
    unfold GV.setM
    rw [set1_self]
  rw [e] at key
  exact key

/-- Tasks on the local tiles of a region of a matrix. -/
theorem VL.tasks (hV : V.OK) (hr : r ∈ V.E.G) {n : Nat} (zs : List Coord2) (op : Coord2 → DSt K → Option (DSt K)) (S : Nat × Nat → Prop) [DecidablePred S] (new : Tiles K)
    (hnd : zs.Nodup) (hzs : ∀ z, z ∈ zs ↔ V.In n r z ∧ S (V.g n r z))
    (hop : ∀ z, V.In n r z → S (V.g n r z) → ∀ m : Tiles K, m (V.g n r z) = a.mat n (V.g n r z) →
      VF V r w (op z) (a.setM n m) ((a.setM n m).setT n (V.g n r z) (new (V.g n r z)))) :
    VL V r w (zs.map op) a (a.setM n fun t => if S t then new t else a.mat n t) := by
  rw [List.map_eq_flatMap]
  refine (VL.tasksL (n := n) zs (fun z => [op z]) (fun z => V.g n r z) new ?_ ?_).to ?_
  · rw [List.nodup_map_iff_inj_on hnd]
    intro y hy z hz e
    exact hV.g_inj hr ((hzs y).1 hy).1 ((hzs z).1 hz).1 e
  · intro z hz m hm
    obtain ⟨h1, h2⟩ := (hzs z).1 hz
    exact (hop z h1 h2 m hm).one
  · refine ⟨fun q z hz => ?_, fun _ => rfl⟩
    unfold GV.setM
    dsimp only
    by_cases hq : q = n
    · subst hq
      rw [set1_same, set1_same]
      refine if_congr ?_ rfl rfl
      rw [List.mem_map]
      constructor
      · rintro ⟨y, hy, e⟩
        rw [← e]
        exact ((hzs y).1 hy).2
      · intro hs
        exact ⟨z, (hzs z).2 ⟨hz, hs⟩, rfl⟩
    · rw [set1_ne _ _ hq, set1_ne _ _ hq]

theorem GV.setP_pan (v : GV K) (r : Coord2) (n : Nat) (d : VP K) : (v.setP r n d).pan r n = d := by
  unfold GV.setP
  dsimp only
  rw [set1_same, set1_same]

/-- Steps that each fill one tile of a panel without tiles. -/
theorem VL.fill (hV : V.OK) (hr : r ∈ V.E.G) {it : Int} {n : Nat} (xs : List Int) (op : Int → DSt K → Option (DSt K)) (hnd : xs.Nodup) {s e : Int}
    (hs : (a.pan r n).s = s) (he : (a.pan r n).e = e) (hs0 : 0 ≤ s) (he0 : 0 ≤ e) (hf : (a.pan r n).W = fun _ => none)
    (hxs : ∀ i, i ∈ xs ↔ 0 ≤ i ∧ s ≤ (V.E.crd n r).gl i ∧ (V.E.crd n r).gl i < e) (W : Int → Blk K)
    (hop : ∀ i ∈ xs, ∀ W' : Int → Option (Blk K), W' ((V.E.crd n r).gl i) = none →
      VF V r (rrIdx it) (op i) (a.setP r n ⟨(a.pan r n).ax, s, e, W'⟩)
        ((a.setP r n ⟨(a.pan r n).ax, s, e, W'⟩).setW r n ((V.E.crd n r).gl i) (W ((V.E.crd n r).gl i)))) :
    VL V r (rrIdx it) (xs.map op) a (a.setP r n ⟨(a.pan r n).ax, s, e, fun t => some (W t)⟩) := by
  have hp := hV.env.crd n hr
  rw [List.map_eq_flatMap]
  have key := VL.list (V := V) (r := r) (w := rrIdx it) xs (fun i => [op i])
    (fun pre => a.setP r n ⟨(a.pan r n).ax, s, e, fun t => if t ∈ pre.map (V.E.crd n r).gl then some (W t) else none⟩) (by
    intro pre i post hx
    have hi : i ∈ xs := by rw [hx]; simp
    obtain ⟨i0, i1, i2⟩ := (hxs i).1 hi
    have hpre : (V.E.crd n r).gl i ∉ pre.map (V.E.crd n r).gl := by
      intro hc
      rw [List.mem_map] at hc
      obtain ⟨j, hj, hji⟩ := hc
      have hjx : j ∈ xs := by rw [hx]; simp [hj]
      have := hp.gl_inj ((hxs j).1 hjx).1 i0 hji
      subst this
      rw [hx] at hnd
      exact (List.nodup_append.1 hnd).2.2 _ hj _ List.mem_cons_self rfl
    have hpan : (a.setP r n ⟨(a.pan r n).ax, s, e, fun t => if t ∈ pre.map (V.E.crd n r).gl then some (W t) else none⟩).pan r n =
        ⟨(a.pan r n).ax, s, e, fun t => if t ∈ pre.map (V.E.crd n r).gl then some (W t) else none⟩ := by
      unfold GV.setP
      dsimp only
      rw [set1_same, set1_same]
    refine (hop i hi _ (if_neg hpre)).one.to ?_
    · refine ⟨fun _ _ _ => rfl, fun m => ?_⟩
      unfold GV.setW
      rw [hpan]
      unfold GV.setP
      dsimp only
      rw [set1_same, set1_same, set1_same]
      by_cases hm : m = n
      · subst hm
        rw [set1_same, set1_same]
        unfold VP.loc
        dsimp only
        congr 1
        funext j
        refine if_congr Iff.rfl ?_ rfl
        unfold set1
        by_cases hj : (V.E.crd m r).gl j = (V.E.crd m r).gl i
        · rw [if_pos hj, if_pos (by simp [hj]), hj]
        · rw [if_neg hj]
          refine if_congr ?_ rfl rfl
          rw [List.map_append, List.mem_append]
          simp [hj]
      · rw [set1_ne _ _ hm, set1_ne _ _ hm, set1_ne _ _ hm])
  simp only [List.map_nil, List.not_mem_nil, if_false] at key
  have e1 : a.setP r n ⟨(a.pan r n).ax, s, e, fun _ => none⟩ = a := by
    unfold GV.setP
    rw [← hf, ← hs, ← he]
    show ({ a with pan := set1 a.pan r (set1 (a.pan r) n (a.pan r n)) } : GV K) = a
    rw [set1_self, set1_self]
  rw [e1] at key
  refine key.to ⟨fun _ _ _ => rfl, fun m => ?_⟩
  unfold GV.setP
  dsimp only
  rw [set1_same, set1_same]
  by_cases hm : m = n
  · subst hm
    rw [set1_same, set1_same]
    unfold VP.loc
    dsimp only
    congr 1
    funext j
    by_cases hj : (V.E.crd m r).nx s ≤ j ∧ j < (V.E.crd m r).nx e
    · rw [if_pos hj, if_pos hj, if_pos]
      have j0 : 0 ≤ j := by have := hp.nx_nonneg hs0; omega
      have j1 : s ≤ (V.E.crd m r).gl j := by
        by_contra hc
        have := (hp.lt_nx j0 hs0).2 (by omega)
        omega
      exact List.mem_map.2 ⟨j, (hxs j).2 ⟨j0, j1, (hp.lt_nx j0 he0).1 hj.2⟩, rfl⟩
    · rw [if_neg hj, if_neg hj]
  · rw [set1_ne _ _ hm, set1_ne _ _ hm]

/-- Links of tiles of a matrix into a panel: `pos i` is the tile for index `i`. -/
theorem VL.links (hV : V.OK) (hr : r ∈ V.E.G) {it : Int} {n q : Nat} {dbg : Bool} (xs : List Int) (pos : Int → Coord2) (hnd : xs.Nodup) {s e : Int}
    (hs : (a.pan r n).s = s) (he : (a.pan r n).e = e) (hs0 : 0 ≤ s) (he0 : 0 ≤ e) (hf : (a.pan r n).W = fun _ => none)
    (hxs : ∀ i, i ∈ xs ↔ 0 ≤ i ∧ s ≤ (V.E.crd n r).gl i ∧ (V.E.crd n r).gl i < e) (W : Int → Blk K)
    (hin : ∀ i ∈ xs, V.In q r (pos i)) (hW : ∀ i ∈ xs, a.mat q (V.g q r (pos i)) = W ((V.E.crd n r).gl i))
    (hb : ∀ t, s ≤ t → t < e → VPanel.fits (V.E.tall n) (W t) (a.pan r n).ax ((V.E.crd n r).dist.global_tile_size_of t) = true)
    (ho : V.E.own n = false) :
    VL V r (rrIdx it) (xs.map fun i => DSt.link (DSt.panel n it) dbg i q (pos i)) a
      (a.setP r n ⟨(a.pan r n).ax, s, e, fun t => some (W t)⟩) := by
  refine VL.fill hV hr xs _ hnd hs he hs0 he0 hf hxs W fun i hi W' hW' => ?_
  obtain ⟨i0, i1, i2⟩ := (hxs i).1 hi
  have e1 : (a.setP r n ⟨(a.pan r n).ax, s, e, W'⟩).mat q (V.g q r (pos i)) = W ((V.E.crd n r).gl i) := hW i hi
  rw [← e1]
  refine VF.link hV hr (n := n) (q := q) (dbg := dbg) (i := i) (idx := pos i) (hin i hi) ?_ i0 ?_ ?_ ?_ ?_ ho
  · rw [GV.setP_pan]; exact hs0
  · rw [GV.setP_pan]; exact i1
  · rw [GV.setP_pan]; exact i2
  · rw [GV.setP_pan]; exact hW'
  · rw [GV.setP_pan, e1]
    exact hb _ i1 i2

/-- `set0` of the tiles of a panel. -/
theorem VL.set0s [Field K] (hV : V.OK) (hr : r ∈ V.E.G) {it : Int} {n : Nat} {dbg : Bool} (xs : List Int) (hnd : xs.Nodup) {s e : Int}
    (hs : (a.pan r n).s = s) (he : (a.pan r n).e = e) (hax : 0 ≤ (a.pan r n).ax) (hs0 : 0 ≤ s) (he0 : 0 ≤ e) (he1 : e ≤ (V.E.crd n r).dist.nrTiles)
    (hf : (a.pan r n).W = fun _ => none)
    (hxs : ∀ i, i ∈ xs ↔ 0 ≤ i ∧ s ≤ (V.E.crd n r).gl i ∧ (V.E.crd n r).gl i < e) (ho : V.E.own n = true) :
    VL V r (rrIdx it) (xs.map fun i => (DSt.panel n it).upd fun v => v.set0 dbg i) a
      (a.setP r n ⟨(a.pan r n).ax, s, e, fun t => some (zeroTile (V.E.tall n) (a.pan r n).ax ((V.E.crd n r).dist.global_tile_size_of t))⟩) := by
  refine VL.fill hV hr xs _ hnd hs he hs0 he0 hf hxs (fun t => zeroTile (V.E.tall n) (a.pan r n).ax ((V.E.crd n r).dist.global_tile_size_of t))
    fun i hi W' hW' => ?_
  obtain ⟨i0, i1, i2⟩ := (hxs i).1 hi
  have hp := hV.env.crd n hr
  have h := VF.set0 (a := a.setP r n ⟨(a.pan r n).ax, s, e, W'⟩) hV hr (it := it) (n := n) (dbg := dbg) (i := i) (by rw [GV.setP_pan]; exact hax)
    (by rw [GV.setP_pan]; exact hs0) i0 (by rw [GV.setP_pan]; exact i1) (by rw [GV.setP_pan]; exact i2)
    (Int.le_of_lt (hp.size_pos (by omega) (by omega))) ho
  rw [GV.setP_pan] at h
  exact h

/-- The tiles of column `k` of a matrix in a panel. -/
theorem VL.linkCol (hV : V.OK) (hr : r ∈ V.E.G) {it : Int} {n q : Nat} {dbg : Bool} {xs : List Int} (hcrd : V.E.crd n r = (V.Q q).at' .Row r) {s e : Int} {k : Nat}
    (hs : (a.pan r n).s = s) (he : (a.pan r n).e = e) (hs0 : 0 ≤ s) (he0 : 0 ≤ e) (hf : (a.pan r n).W = fun _ => none)
    (hxs : ∀ i, i ∈ xs ↔ ((V.Q q).at' .Row r).nx s ≤ i ∧ i < ((V.Q q).at' .Row r).nx e)
    (hk : (k : Int) < ((V.Q q).at' .Col r).dist.nrTiles) (ho : ((V.Q q).at' .Col r).dist.rank_global_tile k = r.get .Col)
    (hb : ∀ t, s ≤ t → t < e → VPanel.fits (V.E.tall n) (a.mat q (t.toNat, k)) (a.pan r n).ax (((V.Q q).at' .Row r).dist.global_tile_size_of t) = true)
    (ho' : V.E.own n = false) (hnd : xs.Nodup := by exact irange_nodup _ _) (he1 : e ≤ ((V.Q q).at' .Row r).dist.nrTiles := by exact le_refl _) :
    VL V r (rrIdx it) (xs.map fun i => DSt.link (DSt.panel n it) dbg i q ⟨i, ((V.Q q).at' .Col r).nx k⟩) a
      (a.setP r n ⟨(a.pan r n).ax, s, e, fun t => some (a.mat q (t.toNat, k))⟩) := by
  have qr := hV.at' q .Row hr
  have qc := hV.at' q .Col hr
  have e1 : ((V.Q q).at' .Col r).gl (((V.Q q).at' .Col r).nx k) = k := by
    rw [← qc.lc_nx (by omega) ho]
    exact qc.gl_lc (by omega) ho
  refine VL.links hV hr (n := n) (q := q) (it := it) (dbg := dbg) xs _ hnd hs he hs0 he0 hf ?_ (fun t => a.mat q (t.toNat, k)) ?_ ?_ ?_ ho'
  · intro i
    rw [hxs, hcrd]
    exact qr.mem_nx hs0 he0
  · intro i hi
    rw [hxs] at hi
    have hi' := (qr.mem_nx hs0 he0).1 hi
    have lb := qc.lc_bounds (t := (k : Int)) (by omega) hk ho
    rw [qc.lc_nx (by omega) ho] at lb
    have hall := qr.nx_mono he0 he1
    rw [qr.nx_all] at hall
    exact ⟨⟨hi'.1, Int.lt_of_lt_of_le hi.2 hall⟩, lb⟩
  · intro i hi
    show a.mat q ((((V.Q q).at' .Row r).gl _).toNat, (((V.Q q).at' .Col r).gl _).toNat) = _
    dsimp only
    rw [e1, hcrd]
    rfl
  · rw [hcrd]
    exact hb

/-- The tiles of row `k` of a matrix in a panel. -/
theorem VL.linkRow (hV : V.OK) (hr : r ∈ V.E.G) {it : Int} {n q : Nat} {dbg : Bool} {xs : List Int} (hcrd : V.E.crd n r = (V.Q q).at' .Col r) {s e : Int} {k : Nat}
    (hs : (a.pan r n).s = s) (he : (a.pan r n).e = e) (hs0 : 0 ≤ s) (he0 : 0 ≤ e) (hf : (a.pan r n).W = fun _ => none)
    (hxs : ∀ i, i ∈ xs ↔ ((V.Q q).at' .Col r).nx s ≤ i ∧ i < ((V.Q q).at' .Col r).nx e)
    (hk : (k : Int) < ((V.Q q).at' .Row r).dist.nrTiles) (ho : ((V.Q q).at' .Row r).dist.rank_global_tile k = r.get .Row)
    (hb : ∀ t, s ≤ t → t < e → VPanel.fits (V.E.tall n) (a.mat q (k, t.toNat)) (a.pan r n).ax (((V.Q q).at' .Col r).dist.global_tile_size_of t) = true)
    (ho' : V.E.own n = false) (hnd : xs.Nodup := by exact irange_nodup _ _) (he1 : e ≤ ((V.Q q).at' .Col r).dist.nrTiles := by exact le_refl _) :
    VL V r (rrIdx it) (xs.map fun i => DSt.link (DSt.panel n it) dbg i q ⟨((V.Q q).at' .Row r).nx k, i⟩) a
      (a.setP r n ⟨(a.pan r n).ax, s, e, fun t => some (a.mat q (k, t.toNat))⟩) := by
  have qr := hV.at' q .Col hr
  have qc := hV.at' q .Row hr
  have e1 : ((V.Q q).at' .Row r).gl (((V.Q q).at' .Row r).nx k) = k := by
    rw [← qc.lc_nx (by omega) ho]
    exact qc.gl_lc (by omega) ho
  refine VL.links hV hr (n := n) (q := q) (it := it) (dbg := dbg) xs _ hnd hs he hs0 he0 hf ?_ (fun t => a.mat q (k, t.toNat)) ?_ ?_ ?_ ho'
  · intro i
    rw [hxs, hcrd]
    exact qr.mem_nx hs0 he0
  · intro i hi
    rw [hxs] at hi
    have hi' := (qr.mem_nx hs0 he0).1 hi
    have lb := qc.lc_bounds (t := (k : Int)) (by omega) hk ho
    rw [qc.lc_nx (by omega) ho] at lb
    have hall := qr.nx_mono he0 he1
    rw [qr.nx_all] at hall
    exact ⟨lb, ⟨hi'.1, Int.lt_of_lt_of_le hi.2 hall⟩⟩
  · intro i hi
    show a.mat q ((((V.Q q).at' .Row r).gl _).toNat, (((V.Q q).at' .Col r).gl _).toNat) = _
    dsimp only
    rw [e1, hcrd]
    rfl
  · rw [hcrd]
    exact hb

end

/-! ### All processes -/

structure VAll (V : VEnv) (w : Bool) (v : GV K) (g : Glob (DSt K) (Blk K)) : Prop where
  clean : Clean V.E.G g
  all : ∀ r ∈ V.E.G, VInv V r w v (g.st r)

/-- A phase of all processes. -/
def VStep (V : VEnv) (w : Bool) (p : Coord2 → List (Instr (DSt K) (Blk K))) (v v' : GV K) : Prop :=
  ∀ g, VAll V w v g → ∃ g', Runs (fun r => if r ∈ V.E.G then p r else []) g g' ∧ VAll V w v' g'

section
variable {V : VEnv} {w : Bool} {a b c : GV K}

theorem VStep.append {p q : Coord2 → List (Instr (DSt K) (Blk K))} (h : VStep V w p a b) (h' : VStep V w q b c) : VStep V w (fun r => p r ++ q r) a c := by
  intro g hg
  obtain ⟨g1, r1, i1⟩ := h g hg
  obtain ⟨g2, r2, i2⟩ := h' g1 i1
  refine ⟨g2, (r1.append r2).congr fun r => ?_, i2⟩
  split <;> rfl

theorem VStep.congr {p q : Coord2 → List (Instr (DSt K) (Blk K))} (h : VStep V w p a b) (e : ∀ r ∈ V.E.G, q r = p r) : VStep V w q a b := by
  intro g hg
  obtain ⟨g1, r1, i1⟩ := h g hg
  refine ⟨g1, r1.congr fun r => ?_, i1⟩
  split
  · rename_i hr; exact e r hr
  · rfl

theorem VStep.to {p : Coord2 → List (Instr (DSt K) (Blk K))} (h : VStep V w p a b) (e : ∀ r ∈ V.E.G, GV.Same V r b c) : VStep V w p a c := by
  intro g hg
  obtain ⟨g1, r1, i1⟩ := h g hg
  exact ⟨g1, r1, i1.clean, fun r hr => (i1.all r hr).congr (e r hr)⟩

theorem VStep.nil (a : GV K) : VStep V w (fun _ => []) a a := fun g hg => ⟨g, .nil (fun r => by simp) g, hg⟩

theorem VStep.locals (hV : V.OK) {fs : Coord2 → List (DSt K → Option (DSt K))} (h : ∀ r ∈ V.E.G, VL V r w (fs r) a b) :
    VStep V w (fun r => (fs r).map Instr.loc) a b := by
  intro g hg
  obtain ⟨g', h1, h2, h3⟩ := Runs.locals_ex hV.env.nodup hg.clean fs (fun r x => VInv V r w b x) (fun r hr => h r hr _ (hg.all r hr))
  exact ⟨g', h1, h2, h3⟩

/-- Replace a panel on all processes. -/
def GV.setPs (v : GV K) (n : Nat) (d : Coord2 → VP K) : GV K := { v with pan := fun r => set1 (v.pan r) n (d r) }

theorem GV.setP_same {r : Coord2} {n : Nat} (d : Coord2 → VP K) (x : VP K) (hx : x.loc (V.E.crd n r) = (d r).loc (V.E.crd n r)) :
    GV.Same V r (a.setP r n x) (a.setPs n d) := by
  refine ⟨fun _ _ _ => rfl, fun m => ?_⟩
  unfold GV.setP GV.setPs
  dsimp only
  rw [set1_same]
  by_cases hm : m = n
  · subst hm; rw [set1_same, set1_same, hx]
  · rw [set1_ne _ _ hm, set1_ne _ _ hm]

/-- Every process changes one of its panels. -/
theorem VStep.panel (hV : V.OK) {n : Nat} {f : Coord2 → DSt K → Option (DSt K)} (d : Coord2 → VP K) (h : ∀ r ∈ V.E.G, VF V r w (f r) a (a.setP r n (d r))) :
    VStep V w (fun r => [Instr.loc (f r)]) a (a.setPs n d) :=
  (VStep.locals hV (fs := fun r => [f r]) fun r hr => (h r hr).one.to (GV.setP_same d (d r) rfl))

/-- From phases on the concrete panels. -/
theorem VStep.ofG {p : Coord2 → List (Instr (DSt K) (Blk K))} {n : Nat} (d : Coord2 → VP K)
    (h : ∀ M : Coord2 → Nat → Coord2 → Blk K, GStep V.E w p (fun r => ⟨M r, fun q => (a.pan r q).loc (V.E.crd q r)⟩)
      fun r => Abs.setPan ⟨M r, fun q => (a.pan r q).loc (V.E.crd q r)⟩ n ((d r).loc (V.E.crd n r))) :
    VStep V w p a (a.setPs n d) := by
  intro g hg
  obtain ⟨g', h1, h2⟩ := h (fun r => (g.st r).mat) g ⟨hg.clean, fun r hr => (hg.all r hr).inv⟩
  refine ⟨g', h1, h2.clean, fun r hr => ?_⟩
  have h3 := h2.all r hr
  have hm : (g'.st r).mat = (g.st r).mat := h3.mat
  refine ⟨?_, fun q z hz => by rw [hm]; exact (hg.all r hr).mat q z hz⟩
  have : (⟨(g'.st r).mat, fun q => ((a.setPs n d).pan r q).loc (V.E.crd q r)⟩ : Abs K) =
      Abs.setPan ⟨(g.st r).mat, fun q => (a.pan r q).loc (V.E.crd q r)⟩ n ((d r).loc (V.E.crd n r)) := by
    unfold Abs.setPan GV.setPs
    dsimp only
    rw [hm]
    congr 1
    funext q
    by_cases hq : q = n
    · subst hq; rw [set1_same, set1_same]
    · rw [set1_ne _ _ hq, set1_ne _ _ hq]
  rw [this]
  exact h3

/-- The broadcast of a panel in the lines of processes `act`. -/
theorem VStep.bcast (hV : V.OK) {it : Int} (n : Nat) {root : Int} (hroot : 0 ≤ root ∧ root < ((V.E.pd n).get (V.E.axis n)).grid) {dbg : Bool}
    {ax s e : Int} (hax : 0 ≤ ax) (hs : 0 ≤ s) (hse : s ≤ e) (he : e ≤ ((V.E.pd n).get (V.E.axis n).orth).dist.nrTiles) (act : Int → Bool)
    (W : Int → Blk K)
    (hW : ∀ t, s ≤ t → t < e → VPanel.fits (V.E.tall n) (W t) ax (((V.E.pd n).get (V.E.axis n).orth).dist.global_tile_size_of t) = true)
    (hA : ∀ r ∈ V.E.G, act (r.get (V.E.axis n).orth) = true → (a.pan r n) =
      ⟨ax, s, e, if r.get (V.E.axis n) = root then fun t => some (W t) else fun _ => none⟩) (ho : V.E.own n = false) :
    VStep V (rrIdx it) (fun r => if act (r.get (V.E.axis n).orth) = true then
        bcastPanel dbg (V.E.axis n) ((V.E.pd n).on r) root (DSt.panel n it) s e else []) a
      (a.setPs n fun r => if act (r.get (V.E.axis n).orth) = true then ⟨ax, s, e, fun t => some (W t)⟩ else a.pan r n) := by
  refine VStep.ofG _ fun M => ?_
  refine (GStep.bcast hV.env n hroot (dbg := dbg) (it := it) hax hs hse he act W hW (fun r hr ha => ?_) ho).to fun r hr => ?_
  · show (a.pan r n).loc _ = _
    rw [hA r hr ha]
    split
    · rfl
    · exact VP.loc_none
  · by_cases ha : act (r.get (V.E.axis n).orth) = true
    · rw [if_pos ha, if_pos ha]
      rfl
    · rw [if_neg ha, if_neg ha]
      exact Abs.setPan_self _ n

theorem VStep.bcastAll (hV : V.OK) {it : Int} (n : Nat) {root : Int} (hroot : 0 ≤ root ∧ root < ((V.E.pd n).get (V.E.axis n)).grid) {dbg : Bool}
    {ax s e : Int} (hax : 0 ≤ ax) (hs : 0 ≤ s) (hse : s ≤ e) (he : e ≤ ((V.E.pd n).get (V.E.axis n).orth).dist.nrTiles)
    (W : Int → Blk K)
    (hW : ∀ t, s ≤ t → t < e → VPanel.fits (V.E.tall n) (W t) ax (((V.E.pd n).get (V.E.axis n).orth).dist.global_tile_size_of t) = true)
    (hA : ∀ r ∈ V.E.G, (a.pan r n) = ⟨ax, s, e, if r.get (V.E.axis n) = root then fun t => some (W t) else fun _ => none⟩) (ho : V.E.own n = false) :
    VStep V (rrIdx it) (fun r => bcastPanel dbg (V.E.axis n) ((V.E.pd n).on r) root (DSt.panel n it) s e) a
      (a.setPs n fun _ => ⟨ax, s, e, fun t => some (W t)⟩) := by
  have h := VStep.bcast hV (a := a) n hroot (dbg := dbg) (it := it) hax hs hse he (fun _ => true) W hW (fun r hr _ => hA r hr) ho
  simp only [if_true] at h
  exact h

/-- The reduction of an accumulator panel. -/
theorem VStep.reduce [Field K] (hV : V.OK) {it : Int} (n : Nat) (ho : V.E.own n = true) {root : Int}
    (hroot : 0 ≤ root ∧ root < ((V.E.pd n).get (V.E.axis n)).grid) {dbg : Bool} {ax s e : Int} (hax : 0 ≤ ax) (hs : 0 ≤ s) (hse : s ≤ e)
    (W : Int → Int → Blk K) (Z : Int → Blk K)
    (hZ : ∀ t, s ≤ t → t < e → sumBlk ((irange 0 ((V.E.pd n).get (V.E.axis n)).grid).map fun q => W q t) = some (Z t))
    (hf : ∀ t, s ≤ t → t < e → VPanel.fits (V.E.tall n) (Z t) ax (((V.E.pd n).get (V.E.axis n).orth).dist.global_tile_size_of t) = true)
    (hA : ∀ r ∈ V.E.G, a.pan r n = ⟨ax, s, e, fun t => some (W (r.get (V.E.axis n)) t)⟩) :
    VStep V (rrIdx it) (fun r => reducePanel dbg (V.E.axis n) ((V.E.pd n).on r) root (DSt.panel n it) s e) a
      (a.setPs n fun r => ⟨ax, s, e, fun t => some (if r.get (V.E.axis n) = root then Z t else W (r.get (V.E.axis n)) t)⟩) := by
  refine VStep.ofG _ fun M => ?_
  refine (GStep.reduce hV.env n ho hroot (dbg := dbg) (it := it) hax hs hse W Z hZ hf (fun r hr => ?_)).to fun r hr => ?_
  · show (a.pan r n).loc _ = _
    rw [hA r hr]
    rfl
  · congr 1
    rw [VP.loc_content (fun t => if r.get (V.E.axis n) = root then Z t else W (r.get (V.E.axis n)) t)]
    congr 2
    funext t
    split <;> rfl

theorem VStep.frm {p : Coord2 → List (Instr (DSt K) (Blk K))} (h : VStep V w p a b) (e : ∀ r ∈ V.E.G, GV.Same V r c a) : VStep V w p c b :=
  fun g hg => h g ⟨hg.clean, fun r hr => (hg.all r hr).congr (e r hr)⟩

theorem VL.frm {r : Coord2} {fs : List (DSt K → Option (DSt K))} (h : VL V r w fs a b) (e : GV.Same V r c a) : VL V r w fs c b :=
  fun x hx => h x (hx.congr e)

theorem VStep.ite {P : Prop} [Decidable P] {p q : Coord2 → List (Instr (DSt K) (Blk K))} (h1 : P → VStep V w p a b) (h2 : ¬ P → VStep V w q a b) :
    VStep V w (fun r => if P then p r else q r) a b := by
  by_cases h : P
  · simp only [if_pos h]; exact h1 h
  · simp only [if_neg h]; exact h2 h

/-! ### States by a list of panels -/

/-- The matrices, the panels of the list, and the other panels. -/
def GV.ofL (m : Nat → Tiles K) (rest : Coord2 → Nat → VP K) (L : List (Coord2 → VP K)) : GV K :=
  ⟨m, fun r n => match L[n]? with
    | some d => d r
    | none => rest r n⟩

theorem GV.ofL_pan {m : Nat → Tiles K} {rest : Coord2 → Nat → VP K} {L : List (Coord2 → VP K)} {n : Nat} (hn : n < L.length) (r : Coord2) :
    (GV.ofL m rest L).pan r n = L[n] r := by
  unfold GV.ofL
  dsimp only
  rw [List.getElem?_eq_getElem hn]

theorem GV.ofL_setPs {m : Nat → Tiles K} {rest : Coord2 → Nat → VP K} {L : List (Coord2 → VP K)} {n : Nat} (hn : n < L.length) (d : Coord2 → VP K) :
    (GV.ofL m rest L).setPs n d = GV.ofL m rest (L.set n d) := by
  unfold GV.setPs GV.ofL
  dsimp only
  congr 1
  funext r q
  unfold set1
  rw [List.getElem?_set]
  by_cases hq : q = n
  · subst hq
    rw [if_pos rfl, if_pos rfl, if_pos hn]
  · rw [if_neg hq, if_neg (Ne.symm hq)]

theorem GV.ofL_to {r : Coord2} {m m' : Nat → Tiles K} {rest : Coord2 → Nat → VP K} {L L' : List (Coord2 → VP K)} {n : Nat} (hn : n < L.length) {x : VP K}
    (d : Coord2 → VP K) (hL : L' = L.set n d) (hx : x.loc (V.E.crd n r) = (d r).loc (V.E.crd n r)) (hm : m = m') :
    GV.Same V r ((GV.ofL m rest L).setP r n x) (GV.ofL m' rest L') := by
  subst hL hm
  rw [← GV.ofL_setPs hn]
  exact GV.setP_same d x hx

theorem GV.ofL_mat {r : Coord2} {m m' : Nat → Tiles K} {rest : Coord2 → Nat → VP K} {L : List (Coord2 → VP K)}
    (h : ∀ n z, V.In n r z → m n (V.g n r z) = m' n (V.g n r z)) : GV.Same V r (GV.ofL m rest L) (GV.ofL m' rest L) := ⟨h, fun _ => rfl⟩

theorem VStep.toL {p : Coord2 → List (Instr (DSt K) (Blk K))} {m : Nat → Tiles K} {rest : Coord2 → Nat → VP K} {L L' : List (Coord2 → VP K)} {n : Nat}
    (hn : n < L.length) {d : Coord2 → VP K} (h : VStep V w p a ((GV.ofL m rest L).setPs n d)) (hL : L' = L.set n d) : VStep V w p a (GV.ofL m rest L') := by
  rw [GV.ofL_setPs hn, ← hL] at h
  exact h

/-- Between iterations. -/
structure VIdle (V : VEnv) (m : Nat → Tiles K) (g : Glob (DSt K) (Blk K)) : Prop where
  clean : Clean V.E.G g
  all : ∀ r ∈ V.E.G, DIdle V.E r (g.st r).mat (g.st r) ∧ ∀ n z, V.In n r z → (g.st r).mat n z = m n (V.g n r z)

/-- An iteration that starts and ends without panels in use. -/
theorem VStep.iter {p : Coord2 → List (Instr (DSt K) (Blk K))} {m m' : Nat → Tiles K}
    (h : ∀ ss se : Coord2 → Nat → Int, (∀ r ∈ V.E.G, ∀ n, 0 ≤ ss r n ∧ (V.E.freeS n = false → ss r n = 0) ∧
        (V.E.freeE n = false → se r n = (V.E.crd n r).dist.nrTiles)) →
      ∃ b : GV K, VStep V w p ⟨m, fun r n => ⟨V.E.tile n, ss r n, se r n, fun _ => none⟩⟩ b ∧ b.mat = m' ∧
        ∀ r ∈ V.E.G, ∀ n, (b.pan r n).ax = V.E.tile n ∧ (b.pan r n).W = (fun _ => none) ∧ 0 ≤ (b.pan r n).s ∧
          (V.E.freeS n = false → (b.pan r n).s = 0) ∧ (V.E.freeE n = false → (b.pan r n).e = (V.E.crd n r).dist.nrTiles))
    {g : Glob (DSt K) (Blk K)} (hg : VIdle V m g) :
    ∃ g', Runs (fun r => if r ∈ V.E.G then p r else []) g g' ∧ VIdle V m' g' := by
  classical
  have hex : ∀ r, ∃ ss se : Nat → Int, r ∈ V.E.G → PInv V.E r w ⟨(g.st r).mat, fun n => ⟨V.E.tile n, ss n, se n, fun _ => none⟩⟩ (g.st r) ∧
      ∀ n, 0 ≤ ss n ∧ (V.E.freeS n = false → ss n = 0) ∧ (V.E.freeE n = false → se n = (V.E.crd n r).dist.nrTiles) := by
    intro r
    by_cases hr : r ∈ V.E.G
    · obtain ⟨ss, se, h1, h2⟩ := (hg.all r hr).1.start w
      exact ⟨ss, se, fun _ => ⟨h1, h2⟩⟩
    · exact ⟨fun _ => 0, fun _ => 0, fun h => absurd h hr⟩
  choose ss se hss using hex
  obtain ⟨b, hb, hm, hb'⟩ := h ss se (fun r hr => (hss r hr).2)
  obtain ⟨g', r1, i1⟩ := hb g ⟨hg.clean, fun r hr => ⟨by
    have := (hss r hr).1
    have e : (fun n => VP.loc (V.E.crd n r) ⟨V.E.tile n, ss r n, se r n, fun _ => none⟩) = fun n => (⟨V.E.tile n, ss r n, se r n, fun _ => none⟩ : PanD K) :=
      funext fun n => VP.loc_none
    show PInv V.E r w ⟨(g.st r).mat, fun n => VP.loc (V.E.crd n r) ⟨V.E.tile n, ss r n, se r n, fun _ => none⟩⟩ _
    rw [e]
    exact this, (hg.all r hr).2⟩⟩
  refine ⟨g', r1, i1.clean, fun r hr => ?_⟩
  have h1 := i1.all r hr
  refine ⟨h1.inv.stop fun n => ?_, fun n z hz => by rw [h1.mat n z hz, hm]⟩
  obtain ⟨q1, q2, q3⟩ := hb' r hr n
  exact ⟨q1, VP.loc_f q2, q3⟩

end
end DLAF
