import Verif.Lemmas.DistGlobal
import Verif.Lemmas.DistSolverStep
import Verif.Spec.DistMatrix
import Verif.Spec.Kernels
/-
Distributed algorithms on square matrices that are all distributed in the same way: the parts of an iteration, for rows and columns alike.
-/
namespace DLAF
variable {K : Type*}

/-- The tile with index `p` along a panel with axis `ax`, in line `q`. -/
def tz (ax : Coord) (p q : Nat) : Nat × Nat :=
  match ax with
  | .Col => (p, q)
  | .Row => (q, p)

/-- The index along a panel with axis `ax`. -/
def px (ax : Coord) (t : Nat × Nat) : Nat :=
  match ax with
  | .Col => t.1
  | .Row => t.2
/-- The index of the line. -/
def qx (ax : Coord) (t : Nat × Nat) : Nat :=
  match ax with
  | .Col => t.2
  | .Row => t.1

@[simp] theorem px_tz (ax : Coord) (p q : Nat) : px ax (tz ax p q) = p := by cases ax <;> rfl
@[simp] theorem qx_tz (ax : Coord) (p q : Nat) : qx ax (tz ax p q) = q := by cases ax <;> rfl
theorem tz_px_qx (ax : Coord) (t : Nat × Nat) : tz ax (px ax t) (qx ax t) = t := by cases ax <;> rfl
theorem tz_orth (ax : Coord) (p q : Nat) : tz ax.orth p q = tz ax q p := by cases ax <;> rfl
theorem px_orth (ax : Coord) (t : Nat × Nat) : px ax.orth t = qx ax t := by cases ax <;> rfl
theorem qx_orth (ax : Coord) (t : Nat × Nat) : qx ax.orth t = px ax t := by cases ax <;> rfl
theorem tileAt_orth (ax : Coord) (i j : Int) : tileAt ax.orth i j = tileAt ax j i := by cases ax <;> rfl

/-- A kind of panels: axis, storage, and whether start and end of the range are set. -/
structure PanKind where
  axis : Coord
  tall : Bool
  freeS : Bool
  freeE : Bool
  own : Bool := false

/-- The panels of an algorithm on matrices with distribution `P`. -/
def sqEnv (P : Params2) (A : Nat → PanKind) : VEnv where
  E := {
    G := P.ranks
    pd := fun _ => P
    axis := fun n => (A n).axis
    tall := fun n => (A n).tall
    tile := fun _ => P.row.tile
    freeS := fun n => (A n).freeS
    freeE := fun n => (A n).freeE
    own := fun n => (A n).own }
  Q := fun _ => P

/-- The size of the tiles in line `t`. -/
abbrev Params2.tsz (P : Params2) (t : Int) : Int := P.row.dist.global_tile_size_of t

/-- The tiles of a square matrix have the right sizes. -/
abbrev Params2.Fits (P : Params2) (m : Tiles K) : Prop := Shaped m P.row.tileSizes P.row.tileSizes P.nt P.nt

/-- Tiles `t` in `S` from `y`, the others from `x`. -/
def mixT (S : Nat × Nat → Prop) [DecidablePred S] (x y : Tiles K) : Tiles K := fun t => if S t then y t else x t

/-- A panel without tiles. -/
def noP (ax s e : Int) : VP K := ⟨ax, s, e, fun _ => none⟩
/-- A panel with tiles of line `k`. -/
def lineP (P : Params2) (ax : Coord) (m : Tiles K) (k : Nat) (s e : Int) : VP K := ⟨P.tsz k, s, e, fun t => some (m (tz ax t.toNat k))⟩

section
variable {P : Params2} {A : Nat → PanKind}

theorem SquareDist.plain (h : SquareDist P) (c : Coord) : Plain (P.get c) := by
  cases c
  · exact h.row
  · exact h.col

theorem SquareDist.plainAt (h : SquareDist P) (c : Coord) {r : Coord2} (hr : r ∈ P.ranks) : Plain (P.at' c r) := Params2.plain (h.plain c) hr

theorem SquareDist.env (h : SquareDist P) : (sqEnv P A).OK := by
  refine ⟨⟨fun _ c => (h.plain c).toTiled, fun _ => rfl, fun _ => ?_, fun _ _ c => h.plain c⟩, fun _ c => h.plain c, fun _ => rfl⟩
  have := h.row.tile_pos
  show 0 ≤ P.row.tile
  omega

theorem SquareDist.nrTiles (h : SquareDist P) (c : Coord) : (P.get c).dist.nrTiles = P.nt := by
  have h0 := h.row.nrTiles_nonneg
  have e : P.col.dist.nrTiles = P.row.dist.nrTiles := h.col.nrTiles_eq h.row h.size.symm h.tile.symm
  unfold Params2.nt
  cases c
  · show P.row.dist.nrTiles = _; omega
  · show P.col.dist.nrTiles = _; omega

theorem SquareDist.tsz (h : SquareDist P) (c : Coord) (t : Int) : (P.get c).dist.global_tile_size_of t = P.tsz t := by
  cases c
  · rfl
  · exact h.col.tile_size_eq h.row h.size.symm h.tile.symm t

theorem SquareDist.tsz_pos (h : SquareDist P) {k : Nat} (hk : k < P.nt) : 0 < P.tsz k ∧ P.tsz k ≤ P.row.tile ∧ (k + 1 < P.nt → P.tsz k = P.row.tile) := by
  have e := h.nrTiles .Row
  have e' : P.row.dist.nrTiles = P.nt := e
  have h1 := h.row.size_pos (t := (k : Int)) (by omega) (by omega)
  have h2 := h.row.size_le (t := (k : Int)) (by omega) (by omega)
  exact ⟨h1, h2.1, fun hc => h2.2 (by omega)⟩

/-- The tiles of a line fit in a panel. -/
theorem SquareDist.fits (h : SquareDist P) {m : Tiles K} (hm : P.Fits m) {ax : Coord} {k : Nat} (hk : k < P.nt) {t : Int} (h0 : 0 ≤ t) (h1 : t < P.nt) :
    VPanel.fits (isTall ax) (m (tz ax t.toNat k)) (P.tsz k) (P.tsz t) = true := by
  have hp := (h.tsz_pos hk).1
  have hq := (h.tsz_pos (k := t.toNat) (by omega)).1
  have et : ((t.toNat : Nat) : Int) = t := by omega
  rw [et] at hq
  unfold Params2.tsz at hp hq ⊢
  cases ax
  · show VPanel.fits false (m (k, t.toNat)) _ _ = true
    have := hm k hk t.toNat (by omega)
    unfold Params.tileSizes at this
    rw [et] at this
    unfold VPanel.fits
    simp only [Bool.false_eq_true, if_false, Bool.and_eq_true, decide_eq_true_eq]
    rw [this.1, this.2]
    constructor <;> omega
  · show VPanel.fits true (m (t.toNat, k)) _ _ = true
    have := hm t.toNat (by omega) k hk
    unfold Params.tileSizes at this
    rw [et] at this
    unfold VPanel.fits
    simp only [if_true, Bool.and_eq_true, decide_eq_true_eq]
    rw [this.1, this.2]
    constructor <;> omega

theorem sq_g (n : Nat) (r : Coord2) (ax : Coord) (i j : Int) :
    (sqEnv P A).g n r (tileAt ax i j) = tz ax ((P.at' ax.orth r).gl i).toNat ((P.at' ax r).gl j).toNat := by cases ax <;> rfl

theorem sq_in (n : Nat) (r : Coord2) (ax : Coord) (i j : Int) : (sqEnv P A).In n r (tileAt ax i j) ↔
    (0 ≤ i ∧ i < (P.at' ax.orth r).dist.localNrTiles) ∧ 0 ≤ j ∧ j < (P.at' ax r).dist.localNrTiles := by
  cases ax
  · exact and_comm
  · exact Iff.rfl

theorem tileAt_eta (ax : Coord) (z : Coord2) : tileAt ax (z.get ax.orth) (z.get ax) = z := by cases ax <;> rfl

/-- A local tile, seen from a panel with axis `ax`. -/
theorem sq_tile (h : SquareDist P) {n : Nat} {r : Coord2} (hr : r ∈ P.ranks) (ax : Coord) {z : Coord2} (hz : (sqEnv P A).In n r z) :
    ∃ (i j : Int) (p q : Nat), z = tileAt ax i j ∧ 0 ≤ i ∧ 0 ≤ j ∧ (P.at' ax.orth r).gl i = p ∧ (P.at' ax r).gl j = q ∧ p < P.nt ∧ q < P.nt ∧
      (sqEnv P A).g n r z = tz ax p q := by
  have e := (tileAt_eta ax z).symm
  rw [e, sq_in] at hz
  obtain ⟨⟨h1, h2⟩, h3, h4⟩ := hz
  have a0 := (h.plainAt ax.orth hr).gl_nonneg h1
  have b0 := (h.plainAt ax hr).gl_nonneg h3
  have a1 : (P.at' ax.orth r).gl (z.get ax.orth) < (P.get ax.orth).dist.nrTiles := (h.plainAt ax.orth hr).gl_lt h1 h2
  have b1 : (P.at' ax r).gl (z.get ax) < (P.get ax).dist.nrTiles := (h.plainAt ax hr).gl_lt h3 h4
  rw [h.nrTiles] at a1 b1
  refine ⟨z.get ax.orth, z.get ax, _, _, e, h1, h3, (Int.toNat_of_nonneg a0).symm, (Int.toNat_of_nonneg b0).symm, by omega, by omega, ?_⟩
  conv => lhs; rw [e]
  rw [sq_g]

/-! ### Lists of local tiles -/

/-- The local tiles with the local indices `[a, b)` along the panel and `[a', b')` of the line. -/
def tilesOf (ax : Coord) (a b a' b' : Int) : List Coord2 := (irange a' b').flatMap fun j => (irange a b).map fun i => tileAt ax i j

theorem mem_tilesOf {ax : Coord} {a b a' b' : Int} {z : Coord2} :
    z ∈ tilesOf ax a b a' b' ↔ (a ≤ z.get ax.orth ∧ z.get ax.orth < b) ∧ a' ≤ z.get ax ∧ z.get ax < b' := by
  unfold tilesOf
  simp only [List.mem_flatMap, List.mem_map, mem_irange]
  constructor
  · rintro ⟨j, hj, i, hi, rfl⟩
    cases ax <;> exact ⟨hi, hj⟩
  · rintro ⟨hi, hj⟩
    exact ⟨_, hj, _, hi, tileAt_eta ax z⟩

theorem tilesOf_nodup (ax : Coord) (a b a' b' : Int) : (tilesOf ax a b a' b').Nodup := by
  unfold tilesOf
  rw [List.nodup_flatMap]
  refine ⟨fun j _ => (irange_nodup a b).map fun x y h => ?_, ?_⟩
  · cases ax <;> simpa [tileAt] using h
  refine (irange_nodup a' b').imp ?_
  intro x y hxy z h1 h2
  rw [List.mem_map] at h1 h2
  obtain ⟨p, _, rfl⟩ := h1
  obtain ⟨q, _, h⟩ := h2
  refine hxy ?_
  cases ax
  · exact (congrArg Coord2.row h).symm
  · exact (congrArg Coord2.col h).symm

/-- The local tiles of a range of global tiles. -/
theorem mem_tilesOf_nx (h : SquareDist P) {n : Nat} {r : Coord2} (hr : r ∈ P.ranks) {ax : Coord} {s e s' e' : Nat} (he : e ≤ P.nt) (he' : e' ≤ P.nt) {z : Coord2} :
    z ∈ tilesOf ax ((P.at' ax.orth r).nx s) ((P.at' ax.orth r).nx e) ((P.at' ax r).nx s') ((P.at' ax r).nx e') ↔
      (sqEnv P A).In n r z ∧ (s ≤ px ax ((sqEnv P A).g n r z) ∧ px ax ((sqEnv P A).g n r z) < e) ∧
        s' ≤ qx ax ((sqEnv P A).g n r z) ∧ qx ax ((sqEnv P A).g n r z) < e' := by
  have p1 := h.plainAt ax.orth hr
  have p2 := h.plainAt ax hr
  have n1 : (P.at' ax.orth r).dist.nrTiles = P.nt := h.nrTiles ax.orth
  have n2 : (P.at' ax r).dist.nrTiles = P.nt := h.nrTiles ax
  have key : ∀ {p : Params} (_ : Plain p) (_ : p.dist.nrTiles = P.nt) {s e : Nat} (_ : e ≤ P.nt) (i : Int), (p.nx s ≤ i ∧ i < p.nx e) ↔
      (0 ≤ i ∧ i < p.dist.localNrTiles) ∧ s ≤ (p.gl i).toNat ∧ (p.gl i).toNat < e := by
    intro p hp hn s e he i
    rw [hp.mem_nx (by omega) (by omega)]
    constructor
    · rintro ⟨h0, h1, h2⟩
      have := hp.gl_nonneg h0
      have hx := (hp.lt_nx h0 (s := p.dist.nrTiles) (by omega)).2 (by omega)
      rw [hp.nx_all] at hx
      exact ⟨⟨h0, hx⟩, by omega, by omega⟩
    · rintro ⟨⟨h0, _⟩, h1, h2⟩
      have := hp.gl_nonneg h0
      exact ⟨h0, by omega, by omega⟩
  rw [mem_tilesOf, key p1 n1 he, key p2 n2 he']
  have e := tileAt_eta ax z
  rw [← e, sq_in, sq_g, px_tz, qx_tz, e]
  tauto

/-- One line of local tiles, on its owner. -/
theorem tilesOf_line (h : SquareDist P) {r : Coord2} (hr : r ∈ P.ranks) {ax : Coord} {a b : Int} {k : Nat} {own : Prop} [Decidable own]
    (ho : own ↔ r.get ax = (P.get ax).dist.rank_global_tile k) :
    (if own then (irange a b).map fun i => tileAt ax i ((P.at' ax r).nx k) else []) =
      tilesOf ax a b ((P.at' ax r).nx k) ((P.at' ax r).nx (k + 1 : Nat)) := by
  have p2 := h.plainAt ax hr
  unfold tilesOf
  rw [show ((k + 1 : Nat) : Int) = (k : Int) + 1 by omega]
  by_cases hc : own
  · have e1 : ∀ x : Int, irange x (x + 1) = [x] := fun x => by rw [irange_cons (by omega), irange_self]
    rw [if_pos hc, p2.nx_succ (t := (k : Int)) (by omega) (ho.1 hc).symm, e1]
    simp
  · rw [if_neg hc, p2.nx_skip (t := (k : Int)) (by omega) (fun e => hc (ho.2 (by
      have : (P.get ax).dist.rank_global_tile k = r.get ax := e
      exact this.symm))), irange_self]
    rfl

/-! ### Steps -/

variable {m : Nat → Tiles K} {rest : Coord2 → Nat → VP K} {L : List (Coord2 → VP K)} {w : Bool}

/-- Tasks on a region of a matrix. -/
theorem sq_tasks (h : SquareDist P) {r : Coord2} (hr : r ∈ P.ranks) (q : Nat) {x y : Tiles K} (zs : List Coord2) (op : Coord2 → DSt K → Option (DSt K))
    {S S' : Nat × Nat → Prop} [DecidablePred S] [DecidablePred S'] (R : Nat × Nat → Prop) (hnd : zs.Nodup)
    (hzs : ∀ z, z ∈ zs ↔ (sqEnv P A).In q r z ∧ R ((sqEnv P A).g q r z)) (hS : ∀ t, R t → ¬ S t) (hS' : ∀ t, S' t ↔ S t ∨ R t)
    (hop : ∀ z, (sqEnv P A).In q r z → R ((sqEnv P A).g q r z) → ∀ c : Tiles K, c ((sqEnv P A).g q r z) = x ((sqEnv P A).g q r z) →
      VF (sqEnv P A) r w (op z) (GV.ofL (set1 m q c) rest L) ((GV.ofL (set1 m q c) rest L).setT q ((sqEnv P A).g q r z) (y ((sqEnv P A).g q r z)))) :
    VL (sqEnv P A) r w (zs.map op) (GV.ofL (set1 m q (mixT S x y)) rest L) (GV.ofL (set1 m q (mixT S' x y)) rest L) := by
  classical
  have hM : ∀ c : Tiles K, (GV.ofL (set1 m q (mixT S x y)) rest L).setM q c = GV.ofL (set1 m q c) rest L := by
    intro c
    unfold GV.setM GV.ofL
    dsimp only
    rw [set1_set1]
  refine (VL.tasks h.env hr (n := q) zs op R y hnd hzs ?_).to ?_
  · intro z hz hR c hc
    rw [hM]
    refine hop z hz hR c ?_
    rw [hc]
    show set1 m q (mixT S x y) q _ = _
    rw [set1_same]
    unfold mixT
    rw [if_neg (hS _ hR)]
  · rw [hM]
    refine GV.ofL_mat fun n z hz => ?_
    by_cases hn : n = q
    · subst hn
      rw [set1_same, set1_same]
      show (if _ then _ else set1 m n (mixT S x y) n _) = mixT S' x y _
      rw [set1_same]
      unfold mixT
      by_cases h1 : R ((sqEnv P A).g n r z)
      · rw [if_pos h1, if_pos ((hS' _).2 (Or.inr h1))]
      · rw [if_neg h1]
        by_cases h2 : S ((sqEnv P A).g n r z)
        · rw [if_pos h2, if_pos ((hS' _).2 (Or.inl h2))]
        · rw [if_neg h2, if_neg (fun hc => ((hS' _).1 hc).elim h2 h1)]
    · rw [set1_ne _ _ hn, set1_ne _ _ hn]

/-- A task on a tile. -/
theorem sq_task (h : SquareDist P) {r : Coord2} (hr : r ∈ P.ranks) {q : Nat} {c : Tiles K} {z : Coord2} (hz : (sqEnv P A).In q r z) {f : Blk K → Option (Blk K)}
    {t : Nat × Nat} (ht : (sqEnv P A).g q r z = t) {b : Blk K} (hf : f (c t) = some b) :
    VF (sqEnv P A) r w (DSt.task q z f) (GV.ofL (set1 m q c) rest L) ((GV.ofL (set1 m q c) rest L).setT q t b) := by
  subst ht
  refine VF.task h.env hr hz ?_
  show f (set1 m q c q _) = _
  rw [set1_same]
  exact hf

/-- Reading a tile of a panel with a line. -/
theorem sq_rd (h : SquareDist P) {r : Coord2} (hr : r ∈ P.ranks) (n : Nat) (hn : n < L.length) {it : Int} {dbg : Bool} {i : Int} {M : Nat → Tiles K}
    {ax : Coord} {x : Tiles K} {k p : Nat} {s e : Int} (hL : L[n] r = lineP P ax x k s e) (hk : k < P.nt) (hs : 0 ≤ s) (hi : 0 ≤ i)
    (hp : (P.at' (A n).axis.orth r).gl i = p) (h1 : s ≤ p) (h2 : p < e) {f : DSt K × Blk K → Option (DSt K)} {c : GV K}
    (hf : VF (sqEnv P A) r (rrIdx it) (fun s => f (s, x (tz ax p k))) (GV.ofL M rest L) c) :
    VF (sqEnv P A) r (rrIdx it) (fun s => ((DSt.panel n it).read dbg i s).bind f) (GV.ofL M rest L) c := by
  have hpan : (GV.ofL M rest L).pan r n = lineP P ax x k s e := (GV.ofL_pan hn r).trans hL
  have hcrd : ((sqEnv P A).E.crd n r).gl i = p := hp
  refine VF.rd h.env hr (n := n) (b := x (tz ax p k)) ?_ ?_ hi ?_ ?_ ?_ hf
  · rw [hpan]
    exact Int.le_of_lt (h.tsz_pos hk).1
  · rw [hpan]; exact hs
  · rw [hpan, hcrd]; exact h1
  · rw [hpan, hcrd]; exact h2
  · rw [hpan, hcrd]; rfl

/-- The tiles of line `k` are put into the panel of their owners. -/
theorem sq_link (h : SquareDist P) {r : Coord2} (hr : r ∈ P.ranks) (n : Nat) (hn : n < L.length) {it : Int} {dbg : Bool} {M : Nat → Tiles K} {q : Nat}
    {ax : Coord} (hax : (A n).axis = ax) (htall : (A n).tall = isTall ax) (hown : (A n).own = false) {k : Nat} {s e : Int} (hL : L[n] r = noP (P.tsz k) s e) (hk : k < P.nt) (hs : 0 ≤ s) (hse : s ≤ e) (he : e ≤ P.nt)
    (hM : P.Fits (M q)) {own : Prop} [Decidable own] (ho : own ↔ r.get ax = (P.get ax).dist.rank_global_tile k) {a b : Int}
    (ha : a = (P.at' ax.orth r).nx s) (hb : b = (P.at' ax.orth r).nx e) {L' : List (Coord2 → VP K)}
    (hL' : L' = L.set n fun r => if r.get ax = (P.get ax).dist.rank_global_tile k then lineP P ax (M q) k s e else noP (P.tsz k) s e) :
    VL (sqEnv P A) r (rrIdx it) (if own then (irange a b).map fun i => DSt.link (DSt.panel n it) dbg i q (tileAt ax i ((P.at' ax r).nx k)) else [])
      (GV.ofL M rest L) (GV.ofL M rest L') := by
  have hpan : (GV.ofL M rest L).pan r n = noP (P.tsz k) s e := (GV.ofL_pan hn r).trans hL
  have hV : (sqEnv P A).OK := h.env
  refine .ite (fun hc => ?_) fun hc => ?_
  · have ho' := ho.1 hc
    have hcrd : ∀ i, ((sqEnv P A).E.crd n r).gl i = (P.at' ax.orth r).gl i := fun i => by
      show (P.at' (A n).axis.orth r).gl i = _
      rw [hax]
    have p1 := h.plainAt ax.orth hr
    have p2 := h.plainAt ax hr
    have e1 : (P.at' ax r).gl ((P.at' ax r).nx k) = k := by
      rw [← p2.lc_nx (by omega) ho'.symm]
      exact p2.gl_lc (by omega) ho'.symm
    have lb := p2.lc_bounds (t := (k : Int)) (by omega) (by have := h.nrTiles ax; show (k : Int) < (P.get ax).dist.nrTiles; omega) ho'.symm
    rw [p2.lc_nx (by omega) ho'.symm] at lb
    refine (VL.links hV hr (n := n) (q := q) (it := it) (dbg := dbg) (irange a b) _ (irange_nodup _ _) (s := s) (e := e) (by rw [hpan]; rfl) (by rw [hpan]; rfl)
      hs (by omega) (by rw [hpan]; rfl) ?_ (fun t => M q (tz ax t.toNat k)) ?_ ?_ ?_ hown).to (GV.ofL_to hn _ hL' ?_ rfl)
    · intro i
      rw [mem_irange, ha, hb, p1.mem_nx hs (by omega), hcrd]
    · intro i hi
      rw [mem_irange, ha, hb] at hi
      have hi' := (p1.mem_nx hs (by omega)).1 hi
      have hall := p1.nx_mono (s := e) (t := (P.at' ax.orth r).dist.nrTiles) (by omega) (by
        have := h.nrTiles ax.orth
        show e ≤ (P.get ax.orth).dist.nrTiles
        omega)
      rw [p1.nx_all] at hall
      rw [sq_in]
      exact ⟨⟨hi'.1, Int.lt_of_lt_of_le hi.2 hall⟩, lb⟩
    · intro i hi
      show M q _ = _
      rw [sq_g, e1, hcrd]
      rfl
    · intro t h0 h1
      have hf : (sqEnv P A).E.tall n = isTall ax := htall
      have hz : ((sqEnv P A).E.crd n r).dist.global_tile_size_of t = P.tsz t := by
        show (P.get (A n).axis.orth).dist.global_tile_size_of t = _
        exact h.tsz _ t
      rw [hf, hz, hpan]
      exact h.fits hM hk (by omega) (by omega)
    · rw [if_pos ho', hpan]
      rfl
  · refine (VL.nil _).to ?_
    subst hL'
    rw [← GV.ofL_setPs hn]
    refine ⟨fun _ _ _ => rfl, fun n' => ?_⟩
    show _ = VP.loc _ (set1 ((GV.ofL M rest L).pan r) n _ n')
    by_cases hn' : n' = n
    · subst hn'
      rw [set1_same, if_neg (fun hc' => hc (ho.2 hc')), hpan]
    · rw [set1_ne _ _ hn']

/-- The broadcast of a line. -/
theorem sq_bcast (h : SquareDist P) (n : Nat) (hn : n < L.length) {it : Int} {dbg : Bool} {M : Nat → Tiles K}
    {ax : Coord} (hax : (A n).axis = ax) (htall : (A n).tall = isTall ax) (hown : (A n).own = false) {x : Tiles K} (hx : P.Fits x) {k : Nat} {s e : Int}
    (hL : L[n] = fun r => if r.get ax = (P.get ax).dist.rank_global_tile k then lineP P ax x k s e else noP (P.tsz k) s e)
    (hk : k < P.nt) (hs : 0 ≤ s) (hse : s ≤ e) (he : e ≤ P.nt) {L' : List (Coord2 → VP K)} (hL' : L' = L.set n fun _ => lineP P ax x k s e) :
    VStep (sqEnv P A) (rrIdx it) (fun r => bcastPanel dbg ax (P.on r) ((P.get ax).dist.rank_global_tile k) (DSt.panel n it) s e)
      (GV.ofL M rest L) (GV.ofL M rest L') := by
  subst hax
  have hroot := (h.plain (A n).axis).valid.wf.cyc.rank_range (t := (k : Int)) (by omega)
  refine VStep.toL hn (d := fun _ => lineP P (A n).axis x k s e) ?_ hL'
  refine VStep.bcastAll h.env (it := it) n hroot (dbg := dbg) (ax := P.tsz k) (Int.le_of_lt (h.tsz_pos hk).1) hs hse ?_ (fun t => x (tz (A n).axis t.toNat k)) ?_ ?_ hown
  · show e ≤ (P.get (A n).axis.orth).dist.nrTiles
    rw [h.nrTiles]
    exact he
  · intro t h0 h1
    show VPanel.fits (A n).tall _ _ ((P.get (A n).axis.orth).dist.global_tile_size_of t) = true
    rw [htall, h.tsz]
    exact h.fits hx hk (by omega) (by omega)
  · intro r hr
    rw [GV.ofL_pan hn, hL]
    by_cases hc : r.get (A n).axis = (P.get (A n).axis).dist.rank_global_tile k
    · beta_reduce
      rw [if_pos hc]
      refine Eq.symm ((congrArg (fun w => (⟨_, _, _, w⟩ : VP K)) (if_pos hc)).trans rfl)
    · beta_reduce
      rw [if_neg hc]
      refine Eq.symm ((congrArg (fun w => (⟨_, _, _, w⟩ : VP K)) (if_neg hc)).trans rfl)

end
end DLAF
