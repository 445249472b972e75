import Verif.Model.DistCholesky
import Verif.Lemmas.BroadcastPanel
import Verif.Lemmas.Tasks
/- The distributed Cholesky factorization simulates the local one. -/
namespace DLAF
section
variable {S V : Type*} {K : Type*}

theorem irange_upto (a b : Nat) : irange (a : Int) (b : Int) = (upto a b).map fun i : Nat => (i : Int) := by
  unfold irange upto
  rw [show ((b : Int) - (a : Int)).toNat = b - a by omega, List.range'_eq_map_range, List.map_map]
  congr 1

/-- Local work simulating a sequential loop. -/
theorem runLocs_upto {M : Type*} (fs : Nat → List (S → Option S)) (step : M → Nat → Option M) (I : Nat → M → S → Prop)
    {a b : Nat} (hab : a ≤ b)
    (hs : ∀ x, a ≤ x → x < b → ∀ m m' s, I x m s → step m x = some m' → ∃ s', runLocs (fs x) s = some s' ∧ I (x + 1) m' s')
    {m m' : M} {s : S} (h : I a m s) (hm : forM' (upto a b) m step = some m') :
    ∃ s', runLocs ((upto a b).flatMap fs) s = some s' ∧ I b m' s' := by
  suffices H : ∀ n c, n = b - c → a ≤ c → c ≤ b → ∀ m s, I c m s → forM' (upto c b) m step = some m' →
      ∃ s', runLocs ((upto c b).flatMap fs) s = some s' ∧ I b m' s' from H (b - a) a rfl (Nat.le_refl _) hab m s h hm
  intro n
  induction n with
  | zero =>
    intro c hc h1 h2 m s h hm
    have : c = b := by omega
    subst this
    rw [upto_self] at hm ⊢
    simp only [forM'_nil, Option.some.injEq] at hm
    subst hm
    exact ⟨s, rfl, h⟩
  | succ n ih =>
    intro c hc h1 h2 m s h hm
    rw [upto_cons (by omega)] at hm ⊢
    rw [forM'_cons, Option.bind_eq_some_iff] at hm
    obtain ⟨m1, e1, e2⟩ := hm
    obtain ⟨s1, f1, f2⟩ := hs c h1 (by omega) m m1 s h e1
    obtain ⟨s2, f3, f4⟩ := ih (c + 1) (by omega) (by omega) (by omega) m1 s1 f2 e2
    refine ⟨s2, ?_, f4⟩
    rw [List.flatMap_cons, runLocs_append, f1]
    exact f3

/-- Local work of all processes. -/
theorem Runs.locals_ex {G : List Coord2} (hG : G.Nodup) {g : Glob S V} (hc : Clean G g)
    (fs : Coord2 → List (S → Option S)) (Q : Coord2 → S → Prop)
    (hf : ∀ r ∈ G, ∃ s', runLocs (fs r) (g.st r) = some s' ∧ Q r s') :
    ∃ g', Runs (fun r => if r ∈ G then (fs r).map Instr.loc else []) g g' ∧ Clean G g' ∧
      (∀ r ∈ G, Q r (g'.st r)) := by
  classical
  let s' : Coord2 → S := fun r => if h : r ∈ G then (hf r h).choose else g.st r
  have hs' : ∀ r (h : r ∈ G), s' r = (hf r h).choose := fun r h => dif_pos h
  refine ⟨_, Runs.locals hG fs s' (fun r => rfl) (fun r h => by rw [hs' r h]; exact (hf r h).choose_spec.1), hc.withSt _, ?_⟩
  intro r h
  show Q r (if r ∈ G then s' r else g.st r)
  rw [if_pos h, hs' r h]
  exact (hf r h).choose_spec.2

theorem forM'_pres {M ι : Type*} {I : M → Prop} {b : M → ι → Option M} {s' : M} :
    ∀ {xs : List ι} {s : M}, (∀ x ∈ xs, ∀ s s', I s → b s x = some s' → I s') → I s → forM' xs s b = some s' → I s' := by
  intro xs
  induction xs with
  | nil =>
    intro s _ h e
    simp only [forM'_nil, Option.some.injEq] at e
    exact e ▸ h
  | cons x xs ih =>
    intro s hb h e
    rw [forM'_cons, Option.bind_eq_some_iff] at e
    obtain ⟨s1, e1, e2⟩ := e
    exact ih (fun y hy => hb y (List.mem_cons_of_mem _ hy)) (hb x List.mem_cons_self s s1 h e1) e2

theorem content_congr {p : Params} (hp : p.Valid) {s e : Int} (hs : 0 ≤ s) (hse : s ≤ e) {W W' : Int → Blk K}
    (h : ∀ t, s ≤ t → t < e → W t = W' t) : content p s e W = content p s e W' := by
  funext i
  unfold content
  by_cases hi : p.dist.next_local_tile_from_global_tile s ≤ i ∧ i < p.dist.next_local_tile_from_global_tile e
  · rw [if_pos hi, if_pos hi]
    have := (C05_local_range_visits hp hs hse (p.dist.global_tile_from_local_tile i)).2 ⟨i, hi.1, hi.2, rfl⟩
    rw [h _ this.1 this.2.1]
  · rw [if_neg hi, if_neg hi]

/-- The iteration of the local algorithm, for either variant, with tile `(i, j)`: `i` along the panel, `j` along
the axis. -/
def seqStep (t : CholTasks K) (nt : Nat) (m : Tiles K) (k : Nat) : Option (Tiles K) := do
  let m ← m.write (k, k) (t.potrf (m (k, k)))
  let m ← forM' (upto (k + 1) nt) m fun m i => m.write (i, k) (t.trsm (m (k, k)) (m (i, k)))
  forM' (upto (k + 1) nt) m fun m j => do
    let m ← m.write (j, j) (t.herk (m (j, k)) (m (j, j)))
    forM' (upto (j + 1) nt) m fun m i => m.write (i, j) (t.gemm (m (i, k)) (m (j, k)) (m (i, j)))

/-- The tasks do not change the size of the tile they write. -/
structure CholTasks.Keeps (t : CholTasks K) : Prop where
  potrf : ∀ a b, t.potrf a = some b → b.rows = a.rows ∧ b.cols = a.cols
  trsm : ∀ k a b, t.trsm k a = some b → b.rows = a.rows ∧ b.cols = a.cols
  herk : ∀ p a b, t.herk p a = some b → b.rows = a.rows ∧ b.cols = a.cols
  gemm : ∀ p q a b, t.gemm p q a = some b → b.rows = a.rows ∧ b.cols = a.cols

/-- The tiles have the sizes of the distribution. -/
def ShapedG (p : Params) (tall : Bool) (nt : Nat) (m : Tiles K) : Prop :=
  ∀ i < nt, ∀ j < nt, VPanel.fits tall (m (i, j)) (p.dist.global_tile_size_of j) (p.dist.global_tile_size_of i) = true

theorem ShapedG.write {p : Params} {tall : Bool} {nt : Nat} {m m' : Tiles K} (h : ShapedG p tall nt m) {z : Nat × Nat}
    {o : Option (Blk K)} (hm : m.write z o = some m') (hk : ∀ b, o = some b → b.rows = (m z).rows ∧ b.cols = (m z).cols) :
    ShapedG p tall nt m' := by
  obtain ⟨b, rfl, rfl⟩ := write_some hm
  obtain ⟨h1, h2⟩ := hk b rfl
  intro i hi j hj
  dsimp only
  have := h i hi j hj
  split
  · rename_i e
    rw [e] at this
    unfold VPanel.fits at this ⊢
    rwa [h1, h2]
  · exact this

/-- Process `r` holds its tiles of `m`. -/
def MatOn (P : Params2) (axis : Coord) (nt : Nat) (r : Coord2) (m : Tiles K) (x : CholState K) : Prop :=
  ∀ i < nt, ∀ j < nt, (P.get axis.orth).dist.rank_global_tile (i : Nat) = r.get axis.orth →
    (P.get axis).dist.rank_global_tile (j : Nat) = r.get axis →
    x.mat (tileAt axis ((P.at' axis.orth r).dist.local_tile_from_global_tile i)
      ((P.at' axis r).dist.local_tile_from_global_tile j)) = m (i, j)

theorem tileAt_inj {axis : Coord} {i j i' j' : Int} (h : tileAt axis i j = tileAt axis i' j') : i = i' ∧ j = j' := by
  cases axis <;> simp [tileAt] at h <;> omega

theorem local_inj {p : Params} (hp : p.Valid) {i j : Int} (hi : 0 ≤ i) (hj : 0 ≤ j)
    (h1 : p.dist.rank_global_tile i = p.rank) (h2 : p.dist.rank_global_tile j = p.rank)
    (h : p.dist.local_tile_from_global_tile i = p.dist.local_tile_from_global_tile j) : i = j := by
  have e1 : p.dist.global_tile_from_local_tile (p.dist.local_tile_from_global_tile i) = i := hp.wf.cyc.local_global hi h1.symm
  have e2 : p.dist.global_tile_from_local_tile (p.dist.local_tile_from_global_tile j) = j := hp.wf.cyc.local_global hj h2.symm
  rw [← e1, h, e2]

/-- The owner's task. -/
theorem MatOn.task {P : Params2} {axis : Coord} {nt : Nat} {r : Coord2} {m m' : Tiles K} {x : CholState K}
    (hC : Plain (P.at' axis.orth r)) (hT : Plain (P.at' axis r)) (h : MatOn P axis nt r m x) {i j : Nat} (hi : i < nt) (hj : j < nt)
    (oi : (P.get axis.orth).dist.rank_global_tile (i : Nat) = r.get axis.orth)
    (oj : (P.get axis).dist.rank_global_tile (j : Nat) = r.get axis) (f : Blk K → Option (Blk K))
    (hm : m.write (i, j) (f (m (i, j))) = some m') :
    ∃ x', CholState.task (tileAt axis ((P.at' axis.orth r).dist.local_tile_from_global_tile i)
      ((P.at' axis r).dist.local_tile_from_global_tile j)) f x = some x' ∧ MatOn P axis nt r m' x' ∧
      x'.panels = x.panels ∧ x'.panelsT = x.panelsT := by
  obtain ⟨b, hb, rfl⟩ := write_some hm
  refine ⟨{ x with mat := set1 x.mat _ b }, by unfold CholState.task; rw [h i hi j hj oi oj, hb]; rfl, ?_, rfl, rfl⟩
  intro i' hi' j' hj' oi' oj'
  dsimp only
  by_cases e : (i', j') = (i, j)
  · simp only [Prod.mk.injEq] at e
    obtain ⟨rfl, rfl⟩ := e
    rw [set1_same, if_pos rfl]
  · rw [if_neg e, set1_ne]
    · exact h i' hi' j' hj' oi' oj'
    · intro hh
      obtain ⟨h1, h2⟩ := tileAt_inj hh
      have := local_inj hC.valid (by omega) (by omega) oi' oi h1
      have := local_inj hT.valid (by omega) (by omega) oj' oj h2
      exact e (by simp; omega)

/-- The others. -/
theorem MatOn.skip {P : Params2} {axis : Coord} {nt : Nat} {r : Coord2} {m m' : Tiles K} {x : CholState K}
    (h : MatOn P axis nt r m x) {i j : Nat}
    (ho : ¬ ((P.get axis.orth).dist.rank_global_tile (i : Nat) = r.get axis.orth ∧
      (P.get axis).dist.rank_global_tile (j : Nat) = r.get axis)) {o : Option (Blk K)}
    (hm : m.write (i, j) o = some m') : MatOn P axis nt r m' x := by
  obtain ⟨b, hb, rfl⟩ := write_some hm
  intro i' hi' j' hj' oi' oj'
  dsimp only
  rw [if_neg]
  · exact h i' hi' j' hj' oi' oj'
  · intro e
    simp only [Prod.mk.injEq] at e
    obtain ⟨rfl, rfl⟩ := e
    exact ho ⟨oi', oj'⟩

theorem MatOn.of_mat {P : Params2} {axis : Coord} {nt : Nat} {r : Coord2} {m : Tiles K} {x y : CholState K}
    (h : MatOn P axis nt r m x) (e : y.mat = x.mat) : MatOn P axis nt r m y := by
  intro i hi j hj oi oj
  rw [e]
  exact h i hi j hj oi oj

/-- Which workspace. -/
abbrev ws (k : Int) : Bool := decide ((k + 1) % 2 = 1)

theorem panel_lawful (k : Int) : (CholState.panel (K := K) k).Lawful := by
  refine ⟨fun s v => set1_same _ _ _, fun s => ?_, fun s v w => ?_⟩
  · simp only [CholState.panel]; rw [set1_self]
  · simp only [CholState.panel]; rw [set1_set1]

theorem panelT_lawful (k : Int) : (CholState.panelT (K := K) k).Lawful := by
  refine ⟨fun s v => set1_same _ _ _, fun s => ?_, fun s v w => ?_⟩
  · simp only [CholState.panelT]; rw [set1_self]
  · simp only [CholState.panelT]; rw [set1_set1]

theorem panel_apart (k : Int) : (CholState.panel (K := K) k).Apart (CholState.panelT k) :=
  ⟨fun _ _ => rfl, fun _ _ => rfl, fun _ _ _ => rfl⟩

/-- The state of process `r` within iteration `k`: the matrix `m`; the panel in use with range `[s, nt)` and contents
`f`; the transposed panel with range `[sT, eT)` and contents `fT`; the other workspaces are empty. -/
structure RS (P : Params2) (axis : Coord) (tall : Bool) (nb : Int) (nt : Nat) (k : Int) (r : Coord2) (m : Tiles K)
    (s : Int) (f : Int → Option (Blk K)) (sT eT : Int) (fT : Int → Option (Blk K)) (x : CholState K) : Prop where
  mat : MatOn P axis nt r m x
  panel : PanelIs (P.at' axis.orth r) tall nb nb s nt f (x.panels (ws k))
  panelT : PanelIs (P.at' axis r) tall nb nb sT eT fT (x.panelsT (ws k))
  other : ∃ s', PanelIs (P.at' axis.orth r) tall nb nb s' nt (fun _ => none) (x.panels (!ws k))
  otherT : ∃ a b, PanelIs (P.at' axis r) tall nb nb a b (fun _ => none) (x.panelsT (!ws k))

/-- The state of process `r` between iterations. -/
structure RB (P : Params2) (axis : Coord) (tall : Bool) (nb : Int) (nt : Nat) (r : Coord2) (m : Tiles K)
    (x : CholState K) : Prop where
  mat : MatOn P axis nt r m x
  panel : ∀ w, ∃ s', PanelIs (P.at' axis.orth r) tall nb nb s' nt (fun _ => none) (x.panels w)
  panelT : ∀ w, ∃ a b, PanelIs (P.at' axis r) tall nb nb a b (fun _ => none) (x.panelsT w)

section
variable {P : Params2} {axis : Coord} {tall : Bool} {nb : Int} {nt : Nat} {k : Int} {r : Coord2} {m : Tiles K}
  {s sT eT : Int} {f fT : Int → Option (Blk K)} {x : CholState K}

theorem RS.updPanel (h : RS P axis tall nb nt k r m s f sT eT fT x) {s' : Int} {f' : Int → Option (Blk K)} {v : VPanel K}
    (hv : PanelIs (P.at' axis.orth r) tall nb nb s' nt f' v) :
    RS P axis tall nb nt k r m s' f' sT eT fT ((CholState.panel k).set x v) := by
  refine ⟨h.mat.of_mat rfl, ?_, h.panelT, ?_, h.otherT⟩
  · show PanelIs _ _ _ _ _ _ _ (set1 x.panels (ws k) v (ws k))
    rw [set1_same]; exact hv
  · obtain ⟨a, ha⟩ := h.other
    refine ⟨a, ?_⟩
    show PanelIs _ _ _ _ _ _ _ (set1 x.panels (ws k) v (!ws k))
    rw [set1_ne _ _ (by simp)]; exact ha

theorem RS.updPanelT (h : RS P axis tall nb nt k r m s f sT eT fT x) {sT' eT' : Int} {fT' : Int → Option (Blk K)} {v : VPanel K}
    (hv : PanelIs (P.at' axis r) tall nb nb sT' eT' fT' v) :
    RS P axis tall nb nt k r m s f sT' eT' fT' ((CholState.panelT k).set x v) := by
  refine ⟨h.mat.of_mat rfl, h.panel, ?_, h.other, ?_⟩
  · show PanelIs _ _ _ _ _ _ _ (set1 x.panelsT (ws k) v (ws k))
    rw [set1_same]; exact hv
  · obtain ⟨a, b, ha⟩ := h.otherT
    refine ⟨a, b, ?_⟩
    show PanelIs _ _ _ _ _ _ _ (set1 x.panelsT (ws k) v (!ws k))
    rw [set1_ne _ _ (by simp)]; exact ha

theorem RS.withMat (h : RS P axis tall nb nt k r m s f sT eT fT x) {m' : Tiles K} {x' : CholState K}
    (hm : MatOn P axis nt r m' x') (h1 : x'.panels = x.panels) (h2 : x'.panelsT = x.panelsT) :
    RS P axis tall nb nt k r m' s f sT eT fT x' := by
  refine ⟨hm, ?_, ?_, ?_, ?_⟩
  · rw [h1]; exact h.panel
  · rw [h2]; exact h.panelT
  · rw [h1]; exact h.other
  · rw [h2]; exact h.otherT

theorem RB.toRS (h : RB P axis tall nb nt r m x) (k : Int) : ∃ s sT eT,
    RS P axis tall nb nt k r m s (fun _ => none) sT eT (fun _ => none) x := by
  obtain ⟨s, hs⟩ := h.panel (ws k)
  obtain ⟨a, b, hab⟩ := h.panelT (ws k)
  exact ⟨s, a, b, h.mat, hs, hab, h.panel _, h.panelT _⟩

theorem RS.toRB (h : RS P axis tall nb nt k r m s (fun _ => none) sT eT (fun _ => none) x) :
    RB P axis tall nb nt r m x := by
  refine ⟨h.mat, fun w => ?_, fun w => ?_⟩
  · by_cases hw : w = ws k
    · subst hw; exact ⟨s, h.panel⟩
    · have : w = !ws k := by revert hw; cases w <;> cases ws k <;> simp
      subst this; exact h.other
  · by_cases hw : w = ws k
    · subst hw; exact ⟨sT, eT, h.panelT⟩
    · have : w = !ws k := by revert hw; cases w <;> cases ws k <;> simp
      subst this; exact h.otherT

end

/-- Assumptions on the distribution. -/
structure DistOK (P : Params2) (tall : Bool) (nb : Int) (nt : Nat) : Prop where
  row : Plain P.row
  col : Plain P.col
  size : P.row.size = P.col.size
  tile : P.row.tile = P.col.tile
  nbEq : nb = P.row.tile
  ntEq : P.row.dist.nrTiles = nt

namespace DistOK
variable {P : Params2} {tall : Bool} {nb : Int} {nt : Nat}

theorem plain (h : DistOK P tall nb nt) (c : Coord) : Plain (P.get c) := by cases c; exact h.row; exact h.col

theorem plainAt (h : DistOK P tall nb nt) (c : Coord) {r : Coord2} (hr : r ∈ P.ranks) : Plain (P.at' c r) :=
  Params2.plain (h.plain c) hr

theorem tsize (h : DistOK P tall nb nt) (c : Coord) (t : Int) :
    (P.get c).dist.global_tile_size_of t = P.row.dist.global_tile_size_of t := by
  cases c
  · rfl
  · exact h.col.tile_size_eq h.row h.size.symm h.tile.symm t

theorem nr (h : DistOK P tall nb nt) (c : Coord) : (P.get c).dist.nrTiles = nt := by
  cases c
  · exact h.ntEq
  · exact (h.col.nrTiles_eq h.row h.size.symm h.tile.symm).trans h.ntEq

theorem nb_nonneg (h : DistOK P tall nb nt) : 0 ≤ nb := by
  rw [h.nbEq]
  have := h.row.valid.2.2.1
  omega

/-- All tiles but the last are full. -/
theorem full (h : DistOK P tall nb nt) {t : Int} (h0 : 0 ≤ t) (h1 : t + 1 < nt) :
    P.row.dist.global_tile_size_of t = nb := by
  have e1 : P.row.dist.global_tile_element_offset = 0 := by rw [h.row.valid.gteo_eq, h.row.offset, Int.zero_emod]
  have hn := h.ntEq
  rw [h.row.valid.wf.global_tsz h0 (by omega), e1, ite_self, if_neg (by omega), h.nbEq]
  show P.row.tile - 0 - 0 = P.row.tile
  omega

end DistOK

/-! ### The phases on one process -/
section
variable {P : Params2} {axis : Coord} {tall : Bool} {nb : Int} {nt : Nat} {k : Nat} {r : Coord2} {m m' : Tiles K}
  {x : CholState K} {dbg : Bool} {t : CholTasks K}

/-- `r` owns index `i` along the panel. -/
def OwnC (P : Params2) (axis : Coord) (r : Coord2) (i : Int) : Prop := (P.get axis.orth).dist.rank_global_tile i = r.get axis.orth
/-- `r` owns index `j` along the axis. -/
def OwnT (P : Params2) (axis : Coord) (r : Coord2) (j : Int) : Prop := (P.get axis).dist.rank_global_tile j = r.get axis

instance (i : Int) : Decidable (OwnC P axis r i) := inferInstanceAs (Decidable (_ = _))
instance (i : Int) : Decidable (OwnT P axis r i) := inferInstanceAs (Decidable (_ = _))

theorem RB.withMat (h : RB P axis tall nb nt r m x) {x' : CholState K}
    (hm : MatOn P axis nt r m' x') (h1 : x'.panels = x.panels) (h2 : x'.panelsT = x.panelsT) :
    RB P axis tall nb nt r m' x' :=
  ⟨hm, fun w => by rw [h1]; exact h.panel w, fun w => by rw [h2]; exact h.panelT w⟩

theorem potrf_rank (D : DistOK P tall nb nt) (hr : r ∈ P.ranks) (hk : k < nt) (h : RB P axis tall nb nt r m x)
    (hm : m.write (k, k) (t.potrf (m (k, k))) = some m') :
    ∃ x', runLocs (dcPotrf t axis (P.on r) k) x = some x' ∧ RB P axis tall nb nt r m' x' := by
  unfold dcPotrf
  simp only [P.on_get]
  by_cases ho : OwnC P axis r k ∧ OwnT P axis r k
  · rw [if_pos (show ((P.get axis.orth).onRank (r.get axis.orth)).dist.rank_global_tile k =
      ((P.get axis.orth).onRank (r.get axis.orth)).dist.rank ∧ ((P.get axis).onRank (r.get axis)).dist.rank_global_tile k =
      ((P.get axis).onRank (r.get axis)).dist.rank from ho)]
    obtain ⟨x', e1, e2, e3, e4⟩ := h.mat.task (D.plainAt _ hr) (D.plainAt _ hr) hk hk ho.1 ho.2 t.potrf hm
    refine ⟨x', ?_, h.withMat e2 e3 e4⟩
    simp only [List.foldlM_cons, List.foldlM_nil, bind]
    rw [e1]
    rfl
  · rw [if_neg (show ¬ (((P.get axis.orth).onRank (r.get axis.orth)).dist.rank_global_tile k =
      ((P.get axis.orth).onRank (r.get axis.orth)).dist.rank ∧ ((P.get axis).onRank (r.get axis)).dist.rank_global_tile k =
      ((P.get axis).onRank (r.get axis)).dist.rank) from ho)]
    exact ⟨x, rfl, h.withMat (h.mat.skip ho hm) rfl rfl⟩

theorem runLocs_one {S : Type*} (f : S → Option S) (s : S) : runLocs [f] s = f s := by
  unfold runLocs
  simp only [List.foldlM_cons, List.foldlM_nil, bind, pure]
  cases f s <;> rfl

theorem upd_some {S : Type*} {R : PRef S K} {f : VPanel K → Option (VPanel K)} {s : S} {v : VPanel K} (h : f (R.get s) = some v) :
    R.upd f s = some (R.set s v) := by
  unfold PRef.upd
  rw [h]
  rfl

theorem read_some {S : Type*} {R : PRef S K} {s : S} {i : Int} {v : VPanel K} {b : Blk K}
    (h : (R.get s).read dbg i = some (v, b)) : R.read dbg i s = some (R.set s v, b) := by
  unfold PRef.read
  rw [h]
  rfl

/-- The state before the broadcast of the diagonal tile. -/
def QA (P : Params2) (axis : Coord) (tall : Bool) (nb : Int) (nt k : Nat) (m : Tiles K) (all : Bool) (r : Coord2)
    (x : CholState K) : Prop :=
  if OwnT P axis r k then
    RS P axis tall nb nt k r m (k + 1) (fun _ => none) k (k + 1)
      (if OwnC P axis r k ∨ all then content (P.at' axis r) k (k + 1) (fun _ => m (k, k)) else fun _ => none) x
  else ∃ sT eT, RS P axis tall nb nt k r m (k + 1) (fun _ => none) sT eT (fun _ => none) x

theorem prepare_rank (D : DistOK P tall nb nt) (hsh : ShapedG P.row tall nt m) (hr : r ∈ P.ranks) (hk : k + 1 < nt)
    (h : RB P axis tall nb nt r m x) :
    ∃ x', runLocs (dcPrepare dbg axis (P.on r) k) x = some x' ∧ QA P axis tall nb nt k m false r x' := by
  obtain ⟨s, sT, eT, h0⟩ := h.toRS k
  have pC := D.plainAt axis.orth hr
  have pT := D.plainAt axis hr
  obtain ⟨v1, a1, a2⟩ := h0.panel.setRangeStart (dbg := dbg) pC (s' := k + 1) (by omega) (by omega)
  have h1 := h0.updPanel a2
  unfold dcPrepare
  simp only [P.on_get]
  rw [runLocs_append, runLocs_one, upd_some (R := CholState.panel (k : Int)) a1, Option.bind_some]
  by_cases hT : OwnT P axis r k
  · rw [if_pos (show ((P.get axis).onRank (r.get axis)).dist.rank_global_tile k =
      ((P.get axis).onRank (r.get axis)).dist.rank from hT)]
    unfold QA
    simp only [if_pos hT]
    obtain ⟨v2, b1, b2⟩ := h1.panelT.setRange (dbg := dbg) pT (s' := k) (e' := k + 1) (by omega) (by omega)
      (by rw [nrTiles_onRank, D.nr]; omega)
    have h2 := h1.updPanelT b2
    rw [runLocs_append, runLocs_one, upd_some (R := CholState.panelT (k : Int)) b1, Option.bind_some]
    by_cases hC : OwnC P axis r k
    · rw [if_pos (show ((P.get axis.orth).onRank (r.get axis.orth)).dist.rank_global_tile k =
        ((P.get axis.orth).onRank (r.get axis.orth)).dist.rank from hC), runLocs_one]
      simp only [hC, true_or, if_true]
      have hmat := h2.mat k (by omega) k (by omega) hC hT
      obtain ⟨i1, i2⟩ := content_owned pT.valid (s := k) (t := k) (by omega) (by omega) (fun _ => m (k, k)) hT
      rw [content_self] at i1 i2
      obtain ⟨_, i3⟩ := content_some pT.valid (s := k) (e := k + 1) (t := k) (by omega) (by omega) (by omega)
        (fun _ => m (k, k)) hT
      obtain ⟨v3, c1, c2⟩ := h2.panelT.setTile (dbg := dbg) pT (by omega) i3 i2 (b := m (k, k)) (by
        rw [tsz_owned pT.valid (by omega) hT, tileSize_onRank, D.tsize]
        have := hsh k (by omega) k (by omega)
        rwa [D.full (t := k) (by omega) (by omega)] at this ⊢)
      rw [i1] at c2
      refine ⟨_, ?_, h2.updPanelT c2⟩
      unfold CholState.link
      rw [hmat]
      exact upd_some (R := CholState.panelT (k : Int)) c1
    · rw [if_neg (show ¬ ((P.get axis.orth).onRank (r.get axis.orth)).dist.rank_global_tile k =
        ((P.get axis.orth).onRank (r.get axis.orth)).dist.rank from hC)]
      simp only [hC, false_or, Bool.false_eq_true, if_false]
      exact ⟨_, rfl, h2⟩
  · rw [if_neg (show ¬ ((P.get axis).onRank (r.get axis)).dist.rank_global_tile k =
      ((P.get axis).onRank (r.get axis)).dist.rank from hT)]
    unfold QA
    simp only [if_neg hT]
    exact ⟨_, rfl, _, _, h1⟩

/-- The panel's tiles: column `k` of `m`. -/
def colOf (m : Tiles K) (k : Nat) : Int → Blk K := fun t => m (t.toNat, k)

theorem shaped_trsm {p : Params} (hke : t.Keeps) (hsh : ShapedG p tall nt m)
    (hm : forM' (upto (k + 1) nt) m (fun m i => m.write (i, k) (t.trsm (m (k, k)) (m (i, k)))) = some m') :
    ShapedG p tall nt m' := by
  refine forM'_pres (I := fun m => ShapedG p tall nt m) ?_ hsh hm
  intro i _ m m' h1 h2
  exact h1.write h2 (fun b hb => hke.trsm _ _ b hb)

theorem column_rank (D : DistOK P tall nb nt) (hke : t.Keeps) (hsh : ShapedG P.row tall nt m) (hr : r ∈ P.ranks) (hk : k + 1 < nt)
    (h : QA P axis tall nb nt k m true r x)
    (hm : forM' (upto (k + 1) nt) m (fun m i => m.write (i, k) (t.trsm (m (k, k)) (m (i, k)))) = some m') :
    ∃ x', runLocs (dcColumn dbg t axis (P.on r) nt k) x = some x' ∧
      RS P axis tall nb nt k r m' (k + 1) (if OwnT P axis r k then content (P.at' axis.orth r) (k + 1) nt (colOf m' k)
        else fun _ => none) (k + 1) (nt - 1) (fun _ => none) x' := by
  have pC := D.plainAt axis.orth hr
  have pT := D.plainAt axis hr
  have last : ∀ {f : Int → Option (Blk K)} {sT eT : Int} {y : CholState K},
      RS P axis tall nb nt k r m' (k + 1) f sT eT (fun _ => none) y →
      ∃ x', runLocs [(CholState.panelT (k : Int)).upd fun v => v.setRange dbg (k + 1) (nt - 1)] y = some x' ∧
        RS P axis tall nb nt k r m' (k + 1) f (k + 1) (nt - 1) (fun _ => none) x' := by
    intro f sT eT y hy
    obtain ⟨v2, b1, b2⟩ := hy.panelT.setRange (dbg := dbg) pT (s' := k + 1) (e' := nt - 1) (by omega) (by omega)
      (by rw [nrTiles_onRank, D.nr]; omega)
    exact ⟨_, by rw [runLocs_one]; exact upd_some (R := CholState.panelT (k : Int)) b1, hy.updPanelT b2⟩
  unfold QA at h
  unfold dcColumn
  simp only [P.on_get]
  by_cases hT : OwnT P axis r k
  · rw [if_pos hT] at h
    rw [if_pos (Or.inr rfl)] at h
    rw [if_pos (show ((P.get axis).onRank (r.get axis)).dist.rank_global_tile k =
      ((P.get axis).onRank (r.get axis)).dist.rank from hT), if_pos hT]
    -- the loop
    let I : Nat → Tiles K → CholState K → Prop := fun i mm y =>
      mm (k, k) = m (k, k) ∧ ShapedG P.row tall nt mm ∧
      RS P axis tall nb nt k r mm (k + 1) (content (P.at' axis.orth r) (k + 1) i (colOf mm k)) k (k + 1)
        (content (P.at' axis r) k (k + 1) (fun _ => m (k, k))) y
    let fs : Nat → List (CholState K → Option (CholState K)) := fun i =>
      if ((P.at' axis.orth r)).dist.rank_global_tile i = (P.at' axis.orth r).rank then
        dcTrsm dbg t axis (P.on r) k ((P.at' axis.orth r).dist.local_tile_from_global_tile i) else []
    obtain ⟨x1, e1, e2, e3, e4⟩ := runLocs_upto fs (fun m i => m.write (i, k) (t.trsm (m (k, k)) (m (i, k)))) I
      (a := k + 1) (b := nt) (by omega) (by
        rintro i i1 i2 mm mm' y ⟨j1, j2, j3⟩ hstep
        have hstep0 := hstep
        obtain ⟨b, hb, rfl⟩ := write_some hstep
        have hcol : content (P.at' axis.orth r) (k + 1) i (colOf (fun z => if z = (i, k) then b else mm z) k) =
            content (P.at' axis.orth r) (k + 1) i (colOf mm k) := by
          refine content_congr pC.valid (by omega) (by omega) ?_
          intro q q1 q2
          unfold colOf
          dsimp only
          rw [if_neg]
          intro e
          simp only [Prod.mk.injEq] at e
          omega
        have hshape : ShapedG P.row tall nt (fun z => if z = (i, k) then b else mm z) :=
          j2.write hstep0 (fun b hb => hke.trsm _ _ b hb)
        have hkk : (fun z => if z = (i, k) then b else mm z) (k, k) = m (k, k) := by
          dsimp only
          rw [if_neg (by simp; omega)]
          exact j1
        simp only [fs]
        by_cases hC : OwnC P axis r i
        · rw [if_pos (show (P.at' axis.orth r).dist.rank_global_tile i = (P.at' axis.orth r).rank from hC)]
          unfold dcTrsm
          simp only [P.on_get]
          -- read the diagonal tile
          obtain ⟨a1, a2⟩ := content_some pT.valid (s := k) (e := k + 1) (t := k) (by omega) (by omega) (by omega)
            (fun _ => m (k, k)) hT
          obtain ⟨v, b1, b2⟩ := j3.panelT.read (dbg := dbg) pT D.nb_nonneg (by omega) a2 a1
          have k1 := j3.updPanelT b2
          obtain ⟨y2, c1, c2, c3, c4⟩ := k1.mat.task pC pT i2 (by omega) hC hT (t.trsm (m (k, k)))
            (m' := fun z => if z = (i, k) then b else mm z) (by rw [← j1]; exact hstep0)
          have k2 := k1.withMat c2 c3 c4
          -- link
          have hmat := k2.mat i i2 k (by omega) hC hT
          obtain ⟨d1, d2⟩ := content_owned pC.valid (s := k + 1) (t := i) (by omega) (by omega)
            (colOf (fun z => if z = (i, k) then b else mm z) k) hC
          obtain ⟨_, d3⟩ := content_some pC.valid (s := k + 1) (e := nt) (t := i) (by omega) (by omega) (by omega)
            (colOf (fun z => if z = (i, k) then b else mm z) k) hC
          rw [← hcol] at k2
          have hval : colOf (fun z => if z = (i, k) then b else mm z) k (i : Int) = b := by simp [colOf]
          obtain ⟨v3, f1, f2⟩ := k2.panel.setTile (dbg := dbg) pC (by omega) d3 d2
            (b := colOf (fun z => if z = (i, k) then b else mm z) k (i : Int)) (by
            rw [tsz_owned pC.valid (by omega) hC, tileSize_onRank, D.tsize, hval]
            have := hshape i i2 k (by omega)
            dsimp only at this
            rw [if_pos rfl] at this
            rwa [D.full (t := k) (by omega) (by omega)] at this)
          rw [d1] at f2
          refine ⟨(CholState.panel (k : Int)).set y2 v3, ?_, hkk, hshape, ?_⟩
          · rw [show ∀ (f g : CholState K → Option (CholState K)), [f, g] = [f] ++ [g] from fun _ _ => rfl, runLocs_append,
              runLocs_one, read_some (R := CholState.panelT (k : Int)) b1, Option.bind_some]
            dsimp only
            rw [c1, Option.bind_some, runLocs_one]
            unfold CholState.link
            rw [hmat]
            rw [hval] at f1
            rw [if_pos rfl]
            exact upd_some (R := CholState.panel (k : Int)) f1
          · have := k2.updPanel f2
            rw [show ((i + 1 : Nat) : Int) = (i : Int) + 1 by omega]
            exact this
        · rw [if_neg (show ¬ (P.at' axis.orth r).dist.rank_global_tile i = (P.at' axis.orth r).rank from hC)]
          refine ⟨y, rfl, hkk, hshape, ?_⟩
          have := j3.withMat (j3.mat.skip (fun hh => hC hh.1) hstep0) rfl rfl
          rw [show ((i + 1 : Nat) : Int) = (i : Int) + 1 by omega, content_not_owned pC.valid (by omega) (by omega) _ hC, hcol]
          exact this)
      (m := m) (s := x) ⟨rfl, hsh, by rw [show ((k + 1 : Nat) : Int) = (k : Int) + 1 by omega, content_self]; exact h⟩ hm
    have hlist : (irange (((P.get axis.orth).onRank (r.get axis.orth)).dist.next_local_tile_from_global_tile ((k : Int) + 1))
        (((P.get axis.orth).onRank (r.get axis.orth)).dist.localNrTiles)).flatMap (dcTrsm dbg t axis (P.on r) k) =
        (upto (k + 1) nt).flatMap fs := by
      have hl := pC.valid.wf.localNrTiles_eq
      have hl' : (P.at' axis.orth r).dist.localNrTiles = (P.at' axis.orth r).dist.next_local_tile_from_global_tile nt := by
        rw [hl, nrTiles_onRank, D.nr]
      rw [hl', local_flatMap pC.valid (by omega) (by omega), show (k : Int) + 1 = ((k + 1 : Nat) : Int) by omega,
        irange_upto, List.flatMap_map]
    rw [hlist, List.append_assoc, runLocs_append, e1, Option.bind_some, runLocs_append, runLocs_one,
      upd_some (R := CholState.panelT (k : Int)) (f := fun v => some v.reset) rfl, Option.bind_some]
    exact last (e4.updPanelT e4.panelT.reset)
  · rw [if_neg hT] at h
    rw [if_neg (show ¬ ((P.get axis).onRank (r.get axis)).dist.rank_global_tile k =
      ((P.get axis).onRank (r.get axis)).dist.rank from hT), if_neg hT]
    obtain ⟨sT, eT, h⟩ := h
    refine last (sT := sT) (eT := eT) (h.withMat ?_ rfl rfl)
    refine forM'_pres (I := fun m => MatOn P axis nt r m x) ?_ h.mat hm
    intro i _ m m' h1 h2
    exact h1.skip (fun hh => hT hh.2) h2

/-- The state in the trailing update: both panels hold column `k` of `W`. -/
abbrev RT (P : Params2) (axis : Coord) (tall : Bool) (nb : Int) (nt k : Nat) (W : Tiles K) (r : Coord2) (m : Tiles K)
    (x : CholState K) : Prop :=
  RS P axis tall nb nt k r m (k + 1) (content (P.at' axis.orth r) (k + 1) nt (colOf W k)) (k + 1) (nt - 1)
    (content (P.at' axis r) (k + 1) (nt - 1) (colOf W k)) x

theorem herk_rank (D : DistOK P tall nb nt) (hr : r ∈ P.ranks) {W : Tiles K} {j : Nat} (hj : k + 1 ≤ j) (hj' : j < nt)
    (h : RT P axis tall nb nt k W r m x) (hC : OwnC P axis r j) (hT : OwnT P axis r j)
    (hm : m.write (j, j) (t.herk (W (j, k)) (m (j, j))) = some m') :
    ∃ x', (((CholState.panel (k : Int)).read dbg ((P.at' axis.orth r).dist.local_tile_from_global_tile j) x).bind fun sb =>
        CholState.task (tileAt axis ((P.at' axis.orth r).dist.local_tile_from_global_tile j)
          ((P.at' axis r).dist.local_tile_from_global_tile j)) (t.herk sb.2) sb.1) = some x' ∧
      RT P axis tall nb nt k W r m' x' := by
  have pC := D.plainAt axis.orth hr
  have pT := D.plainAt axis hr
  obtain ⟨a1, a2⟩ := content_some pC.valid (s := k + 1) (e := nt) (t := j) (by omega) (by omega) (by omega) (colOf W k) hC
  obtain ⟨v, b1, b2⟩ := h.panel.read (dbg := dbg) pC D.nb_nonneg (by omega) a2 a1
  have k1 := h.updPanel b2
  obtain ⟨y2, c1, c2, c3, c4⟩ := k1.mat.task pC pT hj' hj' hC hT (t.herk (W (j, k))) hm
  refine ⟨y2, ?_, k1.withMat c2 c3 c4⟩
  rw [read_some (R := CholState.panel (k : Int)) b1, Option.bind_some]
  exact c1

theorem gemm_rank (D : DistOK P tall nb nt) (hr : r ∈ P.ranks) {W : Tiles K} {i j : Nat} (hj : k + 1 ≤ j) (hij : j + 1 ≤ i) (hi : i < nt)
    (h : RT P axis tall nb nt k W r m x) (hC : OwnC P axis r i) (hT : OwnT P axis r j)
    (hm : m.write (i, j) (t.gemm (W (i, k)) (W (j, k)) (m (i, j))) = some m') :
    ∃ x', (((CholState.panel (k : Int)).read dbg ((P.at' axis.orth r).dist.local_tile_from_global_tile i) x).bind fun sb =>
        ((CholState.panelT (k : Int)).read dbg ((P.at' axis r).dist.local_tile_from_global_tile j) sb.1).bind fun sc =>
        CholState.task (tileAt axis ((P.at' axis.orth r).dist.local_tile_from_global_tile i)
          ((P.at' axis r).dist.local_tile_from_global_tile j)) (t.gemm sb.2 sc.2) sc.1) = some x' ∧
      RT P axis tall nb nt k W r m' x' := by
  have pC := D.plainAt axis.orth hr
  have pT := D.plainAt axis hr
  obtain ⟨a1, a2⟩ := content_some pC.valid (s := k + 1) (e := nt) (t := i) (by omega) (by omega) (by omega) (colOf W k) hC
  obtain ⟨v, b1, b2⟩ := h.panel.read (dbg := dbg) pC D.nb_nonneg (by omega) a2 a1
  have k1 := h.updPanel b2
  obtain ⟨a1, a2⟩ := content_some pT.valid (s := k + 1) (e := nt - 1) (t := j) (by omega) (by omega) (by omega) (colOf W k) hT
  obtain ⟨v', b1', b2'⟩ := k1.panelT.read (dbg := dbg) pT D.nb_nonneg (by omega) a2 a1
  have k2 := k1.updPanelT b2'
  obtain ⟨y2, c1, c2, c3, c4⟩ := k2.mat.task pC pT hi (by omega) hC hT (t.gemm (W (i, k)) (W (j, k))) hm
  refine ⟨y2, ?_, k2.withMat c2 c3 c4⟩
  rw [read_some (R := CholState.panel (k : Int)) b1, Option.bind_some]
  dsimp only
  rw [read_some (R := CholState.panelT (k : Int)) (s := (CholState.panel (k : Int)).set x v) b1', Option.bind_some]
  exact c1

theorem write_col {m m' : Tiles K} {i j k : Nat} {o : Option (Blk K)} (h : m.write (i, j) o = some m') (hj : j ≠ k) (q : Nat) :
    m' (q, k) = m (q, k) := by
  obtain ⟨b, rfl, rfl⟩ := write_some h
  dsimp only
  rw [if_neg (by simp; omega)]

theorem trailing_rank (D : DistOK P tall nb nt) (hr : r ∈ P.ranks) (hk : k + 1 < nt)
    {W : Tiles K} (h : RT P axis tall nb nt k W r W x)
    (hm : forM' (upto (k + 1) nt) W (fun m j => do
      let m ← m.write (j, j) (t.herk (m (j, k)) (m (j, j)))
      forM' (upto (j + 1) nt) m fun m i => m.write (i, j) (t.gemm (m (i, k)) (m (j, k)) (m (i, j)))) = some m') :
    ∃ x', runLocs ((irange ((k : Int) + 1) nt).flatMap (dcTrailing dbg t axis (P.on r) nt k)) x = some x' ∧
      RT P axis tall nb nt k W r m' x' := by
  let I : Nat → Tiles K → CholState K → Prop := fun _ mm y =>
    (∀ q, mm (q, k) = W (q, k)) ∧ RT P axis tall nb nt k W r mm y
  obtain ⟨x', e1, e2⟩ := runLocs_upto (fun j : Nat => dcTrailing dbg t axis (P.on r) nt k j) (fun m j => do
      let m ← m.write (j, j) (t.herk (m (j, k)) (m (j, j)))
      forM' (upto (j + 1) nt) m fun m i => m.write (i, j) (t.gemm (m (i, k)) (m (j, k)) (m (i, j)))) I
      (a := k + 1) (b := nt) (by omega) (by
    rintro j j1 j2 mm mm' y ⟨h1, h2⟩ hstep
    simp only [Option.bind_eq_bind, Option.bind_eq_some_iff] at hstep
    obtain ⟨m1, s1, s2⟩ := hstep
    have q1 : ∀ q, m1 (q, k) = W (q, k) := fun q => (write_col s1 (by omega) q).trans (h1 q)
    unfold dcTrailing
    simp only [P.on_get]
    by_cases hT : OwnT P axis r j
    · rw [if_neg (show ¬ (((P.get axis).onRank (r.get axis)).dist.rank_global_tile j ≠
        ((P.get axis).onRank (r.get axis)).dist.rank) from fun hh => hh hT)]
      have : ∃ y1, runLocs (if ((P.get axis.orth).onRank (r.get axis.orth)).dist.rank_global_tile j =
          ((P.get axis.orth).onRank (r.get axis.orth)).dist.rank then
            [fun s => ((CholState.panel (k : Int)).read dbg
              (((P.get axis.orth).onRank (r.get axis.orth)).dist.local_tile_from_global_tile j) s).bind fun sb =>
              CholState.task (tileAt axis (((P.get axis.orth).onRank (r.get axis.orth)).dist.local_tile_from_global_tile j)
                (((P.get axis).onRank (r.get axis)).dist.local_tile_from_global_tile j)) (t.herk sb.2) sb.1] else []) y = some y1 ∧
          RT P axis tall nb nt k W r m1 y1 := by
        rw [h1 j] at s1
        by_cases hC : OwnC P axis r j
        · rw [if_pos (show ((P.get axis.orth).onRank (r.get axis.orth)).dist.rank_global_tile j =
            ((P.get axis.orth).onRank (r.get axis.orth)).dist.rank from hC), runLocs_one]
          exact herk_rank D hr j1 j2 h2 hC hT s1
        · rw [if_neg (show ¬ ((P.get axis.orth).onRank (r.get axis.orth)).dist.rank_global_tile j =
            ((P.get axis.orth).onRank (r.get axis.orth)).dist.rank from hC)]
          exact ⟨y, rfl, h2.withMat (h2.mat.skip (fun hh => hC hh.1) s1) rfl rfl⟩
      obtain ⟨y1, a1, a2⟩ := this
      rw [runLocs_append, a1, Option.bind_some, show (j : Int) + 1 = ((j + 1 : Nat) : Int) by omega, irange_upto,
        List.flatMap_map]
      refine runLocs_upto _ (fun m i => m.write (i, j) (t.gemm (m (i, k)) (m (j, k)) (m (i, j)))) I (a := j + 1) (b := nt)
        (by omega) ?_ ⟨q1, a2⟩ s2
      rintro i i1 i2 mm mm' y ⟨h1, h2⟩ hstep
      have q2 : ∀ q, mm' (q, k) = W (q, k) := fun q => (write_col hstep (by omega) q).trans (h1 q)
      rw [h1 i, h1 j] at hstep
      by_cases hC : OwnC P axis r i
      · rw [if_neg (show ¬ (((P.get axis.orth).onRank (r.get axis.orth)).dist.rank_global_tile i ≠
          ((P.get axis.orth).onRank (r.get axis.orth)).dist.rank) from fun hh => hh hC), runLocs_one]
        obtain ⟨y', f1, f2⟩ := gemm_rank (dbg := dbg) D hr j1 i1 i2 h2 hC hT hstep
        exact ⟨y', f1, q2, f2⟩
      · rw [if_pos (show ((P.get axis.orth).onRank (r.get axis.orth)).dist.rank_global_tile i ≠
          ((P.get axis.orth).onRank (r.get axis.orth)).dist.rank from hC)]
        exact ⟨y, rfl, q2, h2.withMat (h2.mat.skip (fun hh => hC hh.1) hstep) rfl rfl⟩
    · rw [if_pos (show ((P.get axis).onRank (r.get axis)).dist.rank_global_tile j ≠
        ((P.get axis).onRank (r.get axis)).dist.rank from hT)]
      have hM := h2.mat.skip (fun hh => hT hh.2) s1
      have := forM'_pres (I := fun mm => (∀ q, mm (q, k) = W (q, k)) ∧ MatOn P axis nt r mm y) (by
        rintro i _ mm mm' ⟨c1, c2⟩ hw
        exact ⟨fun q => (write_col hw (by omega) q).trans (c1 q), c2.skip (fun hh => hT hh.2) hw⟩) ⟨q1, hM⟩ s2
      exact ⟨y, rfl, this.1, h2.withMat this.2 rfl rfl⟩) ⟨fun _ => rfl, h⟩ hm
  refine ⟨x', ?_, e2.2⟩
  rw [show (k : Int) + 1 = ((k + 1 : Nat) : Int) by omega, irange_upto, List.flatMap_map]
  exact e1

theorem reset_rank {W : Tiles K} (h : RT P axis tall nb nt k W r m x) :
    ∃ x', runLocs (dcReset (k : Int)) x = some x' ∧ RB P axis tall nb nt r m x' := by
  have h1 := h.updPanel h.panel.reset
  have h2 := h1.updPanelT h1.panelT.reset
  refine ⟨_, ?_, h2.toRB⟩
  unfold dcReset
  rw [show ∀ (f g : CholState K → Option (CholState K)), [f, g] = [f] ++ [g] from fun _ _ => rfl, runLocs_append,
    runLocs_one, upd_some (R := CholState.panel (k : Int)) (f := fun v => some v.reset) rfl, Option.bind_some, runLocs_one]
  exact upd_some (R := CholState.panelT (k : Int)) (f := fun v => some v.reset) rfl

theorem shaped_step {p : Params} (hke : t.Keeps) (hsh : ShapedG p tall nt m) (hm : seqStep t nt m k = some m') :
    ShapedG p tall nt m' := by
  unfold seqStep at hm
  simp only [Option.bind_eq_bind, Option.bind_eq_some_iff] at hm
  obtain ⟨m1, s1, m2, s2, s3⟩ := hm
  have h1 := hsh.write s1 (fun b hb => hke.potrf _ b hb)
  have h2 := shaped_trsm hke h1 s2
  refine forM'_pres (I := fun m => ShapedG p tall nt m) ?_ h2 s3
  intro j _ m m' h hs
  rw [Option.bind_eq_some_iff] at hs
  obtain ⟨m1, s1, s2⟩ := hs
  refine forM'_pres (I := fun m => ShapedG p tall nt m) ?_ (h.write s1 (fun b hb => hke.herk _ _ b hb)) s2
  intro i _ m m' h hs
  exact h.write hs (fun b hb => hke.gemm _ _ _ b hb)

/-- The state of the whole machine between iterations. -/
def RG (P : Params2) (axis : Coord) (tall : Bool) (nb : Int) (nt : Nat) (m : Tiles K) (g : Glob (CholState K) (Blk K)) : Prop :=
  Clean P.ranks g ∧ ShapedG P.row tall nt m ∧ ∀ r ∈ P.ranks, RB P axis tall nb nt r m (g.st r)

theorem step_runs (D : DistOK P tall nb nt) (hke : t.Keeps) (hk : k < nt) {g : Glob (CholState K) (Blk K)}
    (h : RG P axis tall nb nt m g) (hm : seqStep t nt m k = some m') :
    ∃ g', Runs (fun r => if r ∈ P.ranks then distCholStep dbg t axis (P.on r) nt k else []) g g' ∧
      RG P axis tall nb nt m' g' := by
  obtain ⟨hc, hsh, hR⟩ := h
  have hG := P.ranks_nodup
  have hsh' := shaped_step hke hsh hm
  unfold seqStep at hm
  simp only [Option.bind_eq_bind, Option.bind_eq_some_iff] at hm
  obtain ⟨m1, s1, m2, s2, s3⟩ := hm
  have sh1 := hsh.write s1 (fun b hb => hke.potrf _ b hb)
  have sh2 := shaped_trsm hke sh1 s2
  obtain ⟨gA, rA, cA, qA⟩ := Runs.locals_ex (V := Blk K) hG hc (fun r => dcPotrf t axis (P.on r) k)
    (fun r x => RB P axis tall nb nt r m1 x) (fun r hr => potrf_rank D hr hk (hR r hr) s1)
  by_cases hlast : k + 1 = nt
  · subst hlast
    rw [upto_self, forM'_nil, Option.some.injEq] at s2
    subst s2
    rw [upto_self, forM'_nil, Option.some.injEq] at s3
    subst s3
    refine ⟨gA, rA.congr (fun r => ?_), cA, hsh', qA⟩
    unfold distCholStep
    simp
  · have hk1 : k + 1 < nt := by omega
    have pC := D.plain axis.orth
    have pT := D.plain axis
    -- prepare
    obtain ⟨gP, rP, cP, qP⟩ := Runs.locals_ex (V := Blk K) hG cA (fun r => dcPrepare dbg axis (P.on r) k)
      (QA P axis tall nb nt k m1 false) (fun r hr => prepare_rank D sh1 hr hk1 (qA r hr))
    -- broadcast of the diagonal tile
    obtain ⟨gB, rB, cB, oB, qB⟩ := bcastPanel_runs (P := P) (axis := axis.orth) (by rw [orth_orth]; exact pT.toTiled)
      (root := (P.get axis.orth).dist.rank_global_tile k) (pC.valid.wf.cyc.rank_range (by omega))
      (panelT_lawful (K := K) k) (dbg := dbg) (tall := tall) (ax := nb) (s := k) (e := k + 1) D.nb_nonneg (by omega) (by omega)
      (by rw [D.nr]; omega) (fun c => decide ((P.get axis).dist.rank_global_tile k = c)) (fun _ => m1 (k, k))
      (by
        intro q q1 q2
        obtain rfl : q = k := by omega
        have := sh1 k hk k hk
        rw [D.tsize]
        rwa [D.full (t := (k : Int)) (by omega) (by omega)] at this ⊢) cP (by
        intro r hr hact
        simp only [orth_orth, decide_eq_true_eq] at hact ⊢
        have := qP r hr
        unfold QA at this
        rw [if_pos (show OwnT P axis r k from hact)] at this
        have hp := this.panelT
        simp only [Bool.false_eq_true, or_false] at hp
        have e : (if r.get axis.orth = (P.get axis.orth).dist.rank_global_tile k then
            content (P.at' axis r) k (k + 1) (fun _ => m1 (k, k)) else fun _ => none) =
            if OwnC P axis r k then content (P.at' axis r) k (k + 1) (fun _ => m1 (k, k)) else fun _ => none := by
          by_cases hC : OwnC P axis r k
          · rw [if_pos hC, if_pos (show r.get axis.orth = _ from hC.symm)]
          · rw [if_neg hC, if_neg (show ¬ r.get axis.orth = _ from fun h => hC h.symm)]
        rw [e]
        exact hp)
    simp only [orth_orth, decide_eq_true_eq] at rB oB qB
    have qB' : ∀ r ∈ P.ranks, QA P axis tall nb nt k m1 true r (gB.st r) := by
      intro r hr
      have h1 := qP r hr
      unfold QA at h1 ⊢
      by_cases hT : OwnT P axis r k
      · rw [if_pos hT] at h1 ⊢
        rw [if_pos (Or.inr rfl)]
        obtain ⟨v, hv⟩ := (oB r).1
        have h2 := qB r hr hT
        rw [hv, (panelT_lawful _).get_set] at h2
        rw [hv]
        exact h1.updPanelT h2
      · rw [if_neg hT] at h1 ⊢
        rw [(oB r).2 (fun h => hT h.2)]
        exact h1
    -- column
    obtain ⟨gC, rC, cC, qC⟩ := Runs.locals_ex (V := Blk K) hG cB (fun r => dcColumn dbg t axis (P.on r) nt k)
      (fun r x => RS P axis tall nb nt k r m2 (k + 1) (if OwnT P axis r k then content (P.at' axis.orth r) (k + 1) nt (colOf m2 k)
        else fun _ => none) (k + 1) (nt - 1) (fun _ => none) x) (fun r hr => column_rank D hke sh1 hr hk1 (qB' r hr) s2)
    -- broadcast of the panels
    have fit : ∀ q : Int, (k : Int) + 1 ≤ q → q < nt → VPanel.fits tall (colOf m2 k q) nb (P.row.dist.global_tile_size_of q) = true := by
      intro q q1 q2
      have := sh2 q.toNat (by omega) k (by omega)
      rw [D.full (t := (k : Int)) (by omega) (by omega), show ((q.toNat : Nat) : Int) = q by omega] at this
      exact this
    obtain ⟨gD, rD, cD, oD, qD⟩ := bcastPanels_runs (P := P) (axis := axis) pC pT D.size D.tile
      (root := (P.get axis).dist.rank_global_tile k) (pT.valid.wf.cyc.rank_range (by omega))
      (panel_lawful (K := K) k) (panelT_lawful (K := K) k) (panel_apart k) (dbg := dbg) (tall := tall) (tallT := tall)
      (ax := nb) (axT := nb) (s := k + 1) (e := nt) (sT := k + 1) (eT := nt - 1) D.nb_nonneg D.nb_nonneg (by omega) (by omega)
      (by omega) (by omega) (by rw [D.nr]) (colOf m2 k)
      (by intro q q1 q2; rw [D.tsize]; exact fit q q1 q2)
      (by intro q q1 q2; rw [D.tsize]; exact fit q q1 (by omega)) cC (by
        intro r hr
        have := qC r hr
        refine ⟨?_, this.panelT⟩
        have e : (if r.get axis = (P.get axis).dist.rank_global_tile k then
            content (P.at' axis.orth r) (k + 1) nt (colOf m2 k) else fun _ => none) =
            if OwnT P axis r k then content (P.at' axis.orth r) (k + 1) nt (colOf m2 k) else fun _ => none := by
          by_cases hT : OwnT P axis r k
          · rw [if_pos hT, if_pos (show r.get axis = _ from hT.symm)]
          · rw [if_neg hT, if_neg (show ¬ r.get axis = _ from fun h => hT h.symm)]
        rw [e]
        exact this.panel)
    have qD' : ∀ r ∈ P.ranks, RT P axis tall nb nt k m2 r m2 (gD.st r) := by
      intro r hr
      obtain ⟨v, w, hv⟩ := (oD r).1
      obtain ⟨h1, h2⟩ := qD r hr
      rw [hv, (panelT_lawful _).get_set] at h2
      rw [hv, (panel_apart _).get_left, (panel_lawful _).get_set] at h1
      rw [hv]
      exact ((qC r hr).updPanel h1).updPanelT h2
    -- trailing matrix
    obtain ⟨gE, rE, cE, qE⟩ := Runs.locals_ex (V := Blk K) hG cD
      (fun r => (irange ((k : Int) + 1) nt).flatMap (dcTrailing dbg t axis (P.on r) nt k) ++ dcReset (k : Int))
      (fun r x => RB P axis tall nb nt r m' x) (by
        intro r hr
        obtain ⟨x1, a1, a2⟩ := trailing_rank (dbg := dbg) D hr hk1 (qD' r hr) s3
        obtain ⟨x2, b1, b2⟩ := reset_rank a2
        exact ⟨x2, by rw [runLocs_append, a1]; exact b1, b2⟩)
    refine ⟨gE, (((((rA.append rP).append rB).append rC).append rD).append rE).congr (fun r => ?_), cE, hsh', qE⟩
    by_cases hr : r ∈ P.ranks
    · simp only [hr, if_true, true_and]
      unfold distCholStep
      dsimp only
      rw [if_neg (show ¬ ((k : Int) + 1 = nt) by omega)]
      simp only [List.append_assoc, List.map_append, P.on_get]
      rfl
    · simp only [hr, if_false, false_and]
      rfl

/-- The whole factorization. -/
theorem distChol_runs (D : DistOK P tall nb nt) (hke : t.Keeps) {g : Glob (CholState K) (Blk K)}
    (h : RG P axis tall nb nt m g) (hm : forM' (upto 0 nt) m (seqStep t nt) = some m') :
    ∃ g', Runs (fun r => if r ∈ P.ranks then distChol dbg t axis (P.on r) else []) g g' ∧ RG P axis tall nb nt m' g' := by
  obtain ⟨g', r1, r2⟩ := Runs.loop (p := fun (k : Nat) r => if r ∈ P.ranks then distCholStep dbg t axis (P.on r) nt k else [])
    (fun m g => RG P axis tall nb nt m g) (upto 0 nt)
    (fun k hk m m' g h hs => step_runs D hke (mem_upto.1 hk).2 h hs) h hm
  refine ⟨g', r1.congr (fun r => ?_), r2⟩
  by_cases hr : r ∈ P.ranks
  · simp only [hr, if_true]
    unfold distChol
    rw [show (P.on r).col.nrTiles = nt from D.nr .Col, show (0 : Int) = ((0 : Nat) : Int) from rfl, irange_upto, List.flatMap_map]
  · simp [hr]

end
end
end DLAF
