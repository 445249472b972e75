import Verif.Lemmas.DistReduce
import Verif.Lemmas.DistTriangularStep
import Verif.Lemmas.DistTriangularChain
/- The distributed triangular solver with a transposed `op`: one iteration. -/
namespace DLAF
variable {K : Type*}

/-- Pieces of local work that each work on a tile of their own. -/
theorem LStep.tasksL {E : DEnv} {r : Coord2} {w : Bool} {a : Abs K} {n : Nat} {X : Type*} (xs : List X) (ops : X → List (DSt K → Option (DSt K)))
    (pos : X → Coord2) (new : Coord2 → Blk K) (hnd : (xs.map pos).Nodup)
    (hop : ∀ x ∈ xs, ∀ m : Coord2 → Blk K, m (pos x) = a.mat n (pos x) →
      LStep E r w (ops x) (a.setMat n m) (a.setMat n (set1 m (pos x) (new (pos x))))) :
    LStep E r w (xs.flatMap ops) a (a.setMat n fun z => if z ∈ xs.map pos then new z else a.mat n z) := by
  have key := LStep.list (E := E) (r := r) (w := w) xs ops
    (fun pre => a.setMat n fun z => if z ∈ pre.map pos then new z else a.mat n z)
    (by
      intro pre i post e
      have himem : i ∈ xs := by rw [e]; simp
      have hpre : pos i ∉ pre.map pos := by
        intro hc
        rw [e, List.map_append, List.map_cons] at hnd
        exact (List.nodup_append.1 hnd).2.2 _ hc _ List.mem_cons_self rfl
      have := hop i himem (fun z => if z ∈ pre.map pos then new z else a.mat n z) (if_neg hpre)
      convert this using 2
      funext z
      unfold set1
      by_cases hz : z = pos i
      · subst hz; simp
      · simp [hz])
  simp only [List.map_nil, List.not_mem_nil, if_false] at key
  convert key using 1
  unfold Abs.setMat
  rw [set1_self]

theorem irange_cons {a b : Int} (h : a < b) : irange a b = a :: irange (a + 1) b := by
  unfold irange
  rw [show (b - a).toNat = (b - (a + 1)).toNat + 1 by omega, List.range_succ_eq_map]
  simp only [List.map_cons, List.map_map]
  refine congrArg₂ List.cons (by simp) (List.map_congr_left fun x _ => ?_)
  simp only [Function.comp, Nat.succ_eq_add_one]
  omega

theorem filter_flatMap_col {is : List Int} {j : Int} : ∀ {js : List Int}, js.Nodup → j ∈ js →
    ((js.flatMap fun j => is.map fun i => (⟨i, j⟩ : Coord2)).filter fun z => z.col = j) = is.map fun i => ⟨i, j⟩ := by
  intro js
  induction js with
  | nil => intro _ h; cases h
  | cons x js ih =>
    intro hnd hj
    rw [List.flatMap_cons, List.filter_append]
    rw [List.nodup_cons] at hnd
    by_cases hx : x = j
    · subst hx
      have h1 : (is.map fun i => (⟨i, x⟩ : Coord2)).filter (fun z => z.col = x) = is.map fun i => ⟨i, x⟩ := by
        rw [List.filter_eq_self]
        intro z hz
        rw [List.mem_map] at hz
        obtain ⟨_, _, rfl⟩ := hz
        simp
      have h2 : (js.flatMap fun j => is.map fun i => (⟨i, j⟩ : Coord2)).filter (fun z => z.col = x) = [] := by
        rw [List.filter_eq_nil_iff]
        intro z hz
        simp only [List.mem_flatMap, List.mem_map] at hz
        obtain ⟨y, hy, _, _, rfl⟩ := hz
        simp only [decide_eq_true_eq]
        rintro rfl
        exact hnd.1 hy
      rw [h1, h2, List.append_nil]
    · have h1 : (is.map fun i => (⟨i, x⟩ : Coord2)).filter (fun z => z.col = j) = [] := by
        rw [List.filter_eq_nil_iff]
        intro z hz
        rw [List.mem_map] at hz
        obtain ⟨_, _, rfl⟩ := hz
        simpa using hx
      rw [h1, List.nil_append]
      exact ih hnd.2 (by rcases List.mem_cons.1 hj with h | h; exact absurd h.symm hx; exact h)

theorem filter_flatMap_row {j : Int} {js : List Int} (hnd : js.Nodup) (hj : j ∈ js) : ∀ is : List Int,
    ((is.flatMap fun i => js.map fun j => (⟨i, j⟩ : Coord2)).filter fun z => z.col = j) = is.map fun i => ⟨i, j⟩ := by
  intro is
  induction is with
  | nil => rfl
  | cons x is ih =>
    rw [List.flatMap_cons, List.filter_append, ih, List.map_cons]
    have := filter_flatMap_col (is := [x]) hnd hj
    rw [show (js.flatMap fun j => [x].map fun i => (⟨i, j⟩ : Coord2)) = js.map fun j => ⟨x, j⟩ from by
      rw [List.map_eq_flatMap]; rfl] at this
    rw [this]
    rfl

theorem foldlM_keeps {X : Type*} {F : Blk K → X → Option (Blk K)} (hF : ∀ v x v', F v x = some v' → v'.rows = v.rows ∧ v'.cols = v.cols) :
    ∀ (xs : List X) (v v' : Blk K), xs.foldlM F v = some v' → v'.rows = v.rows ∧ v'.cols = v.cols := by
  intro xs
  induction xs with
  | nil => intro v v' h; cases h; exact ⟨rfl, rfl⟩
  | cons x xs ih =>
    intro v v' h
    rw [List.foldlM_cons, Option.bind_eq_bind, Option.bind_eq_some_iff] at h
    obtain ⟨w, h1, h2⟩ := h
    obtain ⟨e1, e2⟩ := hF _ _ _ h1
    obtain ⟨e3, e4⟩ := ih _ _ h2
    exact ⟨e3.trans e1, e4.trans e2⟩

theorem blkAdd_keeps [Field K] {alpha : K} {b a c : Blk K} (h : blkAdd alpha b a = some c) : c.rows = a.rows ∧ c.cols = a.cols := by
  unfold blkAdd at h
  split at h
  · cases h; exact ⟨rfl, rfl⟩
  · cases h

theorem sumBlk_keeps [Field K] {x z : Blk K} {xs : List (Blk K)} (h : sumBlk (x :: xs) = some z) : z.rows = x.rows ∧ z.cols = x.cols :=
  foldlM_keeps (F := fun a b => blkAdd 1 b a) (fun _ _ _ h => blkAdd_keeps h) xs x z h

namespace TriAlg
variable [Field K] {t : TriAlg K} {PA PB : Params2}

/-- The lines of B on the processes at `q` that are solved before line `k`, in the order of the code. -/
def doneOf (t : TriAlg K) (PB : Params2) (q : Int) (k : Nat) : List Nat :=
  (if t.lower then irange (((PB.get t.axis.orth).onRank q).nx ((k : Int) + 1)) ((PB.get t.axis.orth).onRank q).dist.localNrTiles
    else irange 0 (((PB.get t.axis.orth).onRank q).nx k)).map fun i => (((PB.get t.axis.orth).onRank q).gl i).toNat

/-- What an iteration does to the tiles of B, seen by lines. -/
structure TileStepT (t : TriAlg K) (PA PB : Params2) (sigma : K) (a b b' : Tiles K) (k : Nat) (V : Int → Nat → Blk K) (Z : Nat → Blk K) : Prop where
  acc : t.accum = true
  keep : ∀ x w y z, t.upd x w y = some z → z.rows = y.rows ∧ z.cols = y.cols
  lt : k < (PA.get t.axis).ntn
  fitsA : ∀ i < (PA.get t.axis).ntn, (if t.lower then k ≤ i else i ≤ k) → VPanel.fits (isTall t.axis) (a (i, k))
      ((PA.get t.axis).dist.global_tile_size_of k) ((PA.get t.axis.orth).dist.global_tile_size_of i) = true
  sums : ∀ q, 0 ≤ q → q < (PB.get t.axis.orth).grid → ∀ j < (PB.get t.axis).ntn,
      (t.doneOf PB q k).foldlM (fun v i => t.upd (a (i, k)) (b (i, j)) v)
        (zeroTile (isTall t.axis.orth) ((PA.get t.axis).dist.global_tile_size_of k) ((PB.get t.axis).dist.global_tile_size_of j)) = some (V q j)
  total : ∀ j < (PB.get t.axis).ntn, sumBlk ((irange 0 (PB.get t.axis.orth).grid).map fun q => V q j) = some (Z j)
  diag : ∀ j < (PB.get t.axis).ntn, (blkAdd sigma (Z j) (b (k, j))).bind (t.diag (a (k, k))) = some (b' (k, j))
  rest : ∀ i < (PA.get t.axis).ntn, i ≠ k → ∀ j < (PB.get t.axis).ntn, b' (i, j) = b (i, j)

theorem mem_doneLines (h : TriDist t.axis.orth PA PB) {r : Coord2} (hr : r ∈ PB.ranks) {k : Nat} (hk : k < (PA.get t.axis).ntn) {i : Int} :
    i ∈ t.doneLines (PB.on r) k ↔ 0 ≤ i ∧ i < (PB.at' t.axis.orth r).dist.localNrTiles ∧
      (if t.lower then (k : Int) < (PB.at' t.axis.orth r).gl i else (PB.at' t.axis.orth r).gl i < k) := by
  have hab : PA.at' t.axis.orth r = PB.at' t.axis.orth r := by
    show (PA.get t.axis.orth).onRank _ = (PB.get t.axis.orth).onRank _
    rw [h.lines]
  rw [← mem_trailing h hr hk]
  unfold doneLines trailing
  simp only [Params2.on_get]
  rw [show ((PA.get t.axis.orth).onRank (r.get t.axis.orth)) = PB.at' t.axis.orth r from hab]
  split
  · rfl
  · rw [List.mem_reverse]

theorem doneOf_eq (r : Coord2) (k : Nat) : t.doneOf PB (r.get t.axis.orth) k =
    (t.doneLines (PB.on r) k).map fun i => ((PB.at' t.axis.orth r).gl i).toNat := by
  unfold doneOf doneLines
  simp only [Params2.on_get]

theorem filter_doneTiles (db : Distribution) (k : Int) {j : Int} (h0 : 0 ≤ j) (h1 : j < (db.get t.axis).localNrTiles) :
    (t.doneTiles db k).filter (fun z => z.col = j) = (t.doneLines db k).map fun i => ⟨i, j⟩ := by
  have hj : j ∈ irange 0 (db.get t.axis).localNrTiles := mem_irange.2 ⟨h0, h1⟩
  unfold doneTiles
  split
  · exact filter_flatMap_col (irange_nodup _ _) hj
  · exact filter_flatMap_row (irange_nodup _ _) hj _

theorem mem_doneTiles {db : Distribution} {k : Int} {z : Coord2} : z ∈ t.doneTiles db k ↔ z.row ∈ t.doneLines db k ∧ 0 ≤ z.col ∧ z.col < (db.get t.axis).localNrTiles := by
  rw [← mem_irange (a := 0)]
  unfold doneTiles
  split <;> simp only [List.mem_flatMap, List.mem_map]
  · constructor
    · rintro ⟨j, hj, i, hi, rfl⟩; exact ⟨hi, hj⟩
    · rintro ⟨hi, hj⟩; exact ⟨z.col, hj, z.row, hi, rfl⟩
  · constructor
    · rintro ⟨i, hi, j, hj, rfl⟩; exact ⟨hi, hj⟩
    · rintro ⟨hi, hj⟩; exact ⟨z.row, hi, z.col, hj, rfl⟩

/-- `set0` of the panel of B. -/
theorem set0_step (h : TriDist t.axis.orth PA PB) (hacc : t.accum = true) {dbg : Bool} {k : Nat} (hk : k < (PA.get t.axis).ntn) {r : Coord2} (hr : r ∈ PB.ranks)
    {m : Nat → Coord2 → Blk K} {rest : Nat → PanD K} {dA : PanD K} :
    LStep (t.env PA PB) r (rrIdx (t.iterG PA k))
      ((irange 0 ((PB.on r).get t.axis).localNrTiles).map fun j => (DSt.panel 1 (t.iterG PA k)).upd fun v => v.set0 dbg j)
      (Abs.of m rest [dA, ⟨(PA.get t.axis).dist.global_tile_size_of k, 0, (PB.get t.axis).dist.nrTiles, fun _ => none⟩])
      (Abs.of m rest [dA, ⟨(PA.get t.axis).dist.global_tile_size_of k, 0, (PB.get t.axis).dist.nrTiles,
        content (PB.at' t.axis r) 0 (PB.get t.axis).dist.nrTiles (fun j => zeroTile (isTall t.axis.orth) ((PA.get t.axis).dist.global_tile_size_of k)
          ((PB.get t.axis).dist.global_tile_size_of j))⟩]) := by
  have hE := env_ok h
  have hpb : Plain (PB.at' t.axis r) := Params2.plain (h.plainB _) hr
  have hkpos := (h.plainA t.axis).size_pos (t := (k : Int)) (by omega) (by unfold Params.ntn at hk; omega)
  have hi : ∀ j, j ∈ irange 0 ((PB.on r).get t.axis).localNrTiles → 0 ≤ j ∧ j < (PB.at' t.axis r).dist.localNrTiles := by
    intro j hj
    rw [Params2.on_get] at hj
    exact mem_irange.1 hj
  have key := LStep.set0s (E := t.env PA PB) (r := r) (it := t.iterG PA k) (n := 1) (dbg := dbg) (a := Abs.of m rest [dA,
    ⟨(PA.get t.axis).dist.global_tile_size_of k, 0, (PB.get t.axis).dist.nrTiles, fun _ => none⟩]) hE hr
    (show (decide (1 = 1) && t.accum) = true by rw [hacc]; rfl) (irange 0 ((PB.on r).get t.axis).localNrTiles) (le_refl _) (Int.le_of_lt hkpos) (by
      intro j hj
      obtain ⟨j0, j1⟩ := hi j hj
      have g0 := hpb.gl_nonneg j0
      have g1 := hpb.gl_lt j0 j1
      rw [crd1]
      exact ⟨(hpb.content_at (i := j) (s := 0) (e := (PB.get t.axis).dist.nrTiles) (fun _ => zeroTile (K := K) true 0 0) j0 (le_refl _) hpb.nrTiles_nonneg g0 g1).2,
        Int.le_of_lt (hpb.size_pos g0 g1)⟩)
  refine key.to ?_
  refine Eq.trans ?_ (Abs.of2_1 _ _ _ _ _)
  congr 3
  show _ = (⟨(PA.get t.axis).dist.global_tile_size_of k, 0, (PB.get t.axis).dist.nrTiles, fun i => if i ∈ irange 0 ((PB.on r).get t.axis).localNrTiles then
    some (zeroTile (isTall t.axis.orth) ((PA.get t.axis).dist.global_tile_size_of k) (tsz ((t.env PA PB).crd 1 r) i)) else none⟩ : PanD K)
  congr 1
  rw [crd1]
  refine (hpb.links_content (s := 0) (e := (PB.get t.axis).dist.nrTiles) _ _ _ ?_ (fun i _ => rfl) (le_refl _)).symm
  intro i
  rw [Params2.on_get, mem_irange, hpb.nx_zero, show (PB.at' t.axis r).nx (PB.get t.axis).dist.nrTiles = _ from hpb.nx_all]

/-- The contributions of the tiles of a process. -/
theorem accum_step (h : TriDist t.axis.orth PA PB) (hacc : t.accum = true) (hkeep : ∀ x w y z, t.upd x w y = some z → z.rows = y.rows ∧ z.cols = y.cols)
    {dbg : Bool} {k : Nat} (hk : k < (PA.get t.axis).ntn) {a b : Tiles K} {V : Nat → Blk K}
    {W : Int → Blk K} (hW : ∀ i : Nat, (if t.lower then k ≤ i else i ≤ k) → W i = a (i, k)) {r : Coord2} (hr : r ∈ PB.ranks)
    (hu : ∀ j < (PB.get t.axis).ntn, (t.doneOf PB (r.get t.axis.orth) k).foldlM (fun v i => t.upd (a (i, k)) (b (i, j)) v)
        (zeroTile (isTall t.axis.orth) ((PA.get t.axis).dist.global_tile_size_of k) ((PB.get t.axis).dist.global_tile_size_of j)) = some (V j))
    {m : Nat → Coord2 → Blk K} (hv : LView PB t.axis r b (m 1)) {rest : Nat → PanD K} :
    LStep (t.env PA PB) r (rrIdx (t.iterG PA k)) (t.accumulate dbg (PA.on r) (PB.on r) k)
      (Abs.of m rest [⟨(PA.get t.axis).dist.global_tile_size_of k, t.start k, (PA.get t.axis.orth).dist.nrTiles,
          content (PA.at' t.axis.orth r) (t.start k) (PA.get t.axis.orth).dist.nrTiles W⟩,
        ⟨(PA.get t.axis).dist.global_tile_size_of k, 0, (PB.get t.axis).dist.nrTiles,
        content (PB.at' t.axis r) 0 (PB.get t.axis).dist.nrTiles (fun j => zeroTile (isTall t.axis.orth) ((PA.get t.axis).dist.global_tile_size_of k)
          ((PB.get t.axis).dist.global_tile_size_of j))⟩])
      (Abs.of m rest [⟨(PA.get t.axis).dist.global_tile_size_of k, t.start k, (PA.get t.axis.orth).dist.nrTiles,
          content (PA.at' t.axis.orth r) (t.start k) (PA.get t.axis.orth).dist.nrTiles W⟩,
        ⟨(PA.get t.axis).dist.global_tile_size_of k, 0, (PB.get t.axis).dist.nrTiles,
        content (PB.at' t.axis r) 0 (PB.get t.axis).dist.nrTiles (fun j => V j.toNat)⟩]) := by
  have hE := env_ok h
  have hn := h.nr_eq t.axis.orth t.axis
  have hkA : (k : Int) < (PA.get t.axis).dist.nrTiles := by unfold Params.ntn at hk; omega
  have hkpos := (h.plainA t.axis).size_pos (t := (k : Int)) (by omega) hkA
  have hpo : Plain (PB.at' t.axis.orth r) := Params2.plain (h.plainB _) hr
  have hpb : Plain (PB.at' t.axis r) := Params2.plain (h.plainB _) hr
  have hab : PA.at' t.axis.orth r = PB.at' t.axis.orth r := by
    show (PA.get t.axis.orth).onRank _ = (PB.get t.axis.orth).onRank _
    rw [h.lines]
  have hst : 0 ≤ t.start k ∧ t.start k ≤ k := by unfold start; split <;> omega
  let kz := (PA.get t.axis).dist.global_tile_size_of k
  let nA := (PA.get t.axis.orth).dist.nrTiles
  let nB := (PB.get t.axis).dist.nrTiles
  let gi : Int → Nat := fun i => ((PB.at' t.axis.orth r).gl i).toNat
  let gj : Int → Nat := fun j => ((PB.at' t.axis r).gl j).toNat
  let F : Coord2 → Blk K → Option (Blk K) := fun z v => t.upd (a (gi z.row, k)) (b (gi z.row, gj z.col)) v
  let zero : Int → Blk K := fun j => zeroTile (isTall t.axis.orth) kz ((PB.get t.axis).dist.global_tile_size_of j)
  let A0 : Abs K := Abs.of m rest [⟨kz, t.start k, nA, content (PA.at' t.axis.orth r) (t.start k) nA W⟩,
        ⟨kz, 0, nB, content (PB.at' t.axis r) 0 nB zero⟩]
  have hown : (t.env PA PB).own 1 = true := show (decide (1 = 1) && t.accum) = true by rw [hacc]; rfl
  have hloc : ∀ j : Int, 0 ≤ j → j < (PB.at' t.axis r).dist.localNrTiles →
      content (PB.at' t.axis r) 0 nB zero j = some (zero ((PB.at' t.axis r).gl j)) ∧ InRange (PB.at' t.axis r) 0 nB j ∧
      ((t.doneTiles (PB.on r) k).filter fun y => y.col = j).foldlM (fun v y => F y v) (zero ((PB.at' t.axis r).gl j)) = some (V (gj j)) := by
    intro j j0 j1
    have g0 := hpb.gl_nonneg j0
    have g1 : (PB.at' t.axis r).gl j < (PB.get t.axis).dist.nrTiles := hpb.gl_lt j0 j1
    obtain ⟨c1, c2⟩ := hpb.content_at (i := j) (s := 0) (e := nB) zero j0 (le_refl _) hpb.nrTiles_nonneg g0 g1
    refine ⟨c1, c2, ?_⟩
    rw [filter_doneTiles _ _ j0 (by rw [Params2.on_get]; exact j1), List.foldlM_map]
    have := hu (gj j) (by show ((PB.at' t.axis r).gl j).toNat < (PB.get t.axis).dist.nrTiles.toNat; omega)
    rw [doneOf_eq, List.foldlM_map, show ((gj j : Nat) : Int) = (PB.at' t.axis r).gl j from by show ((((PB.at' t.axis r).gl j).toNat : Nat) : Int) = _; omega] at this
    exact this
  have key := LStep.accum (E := t.env PA PB) (r := r) (w := rrIdx (t.iterG PA k)) (a := A0) (n := 1) (t.doneTiles (PB.on r) k)
    (fun z => fun s => ((DSt.panel 0 (t.iterG PA k)).read dbg z.row s).bind fun sa =>
      (DSt.panel 1 (t.iterG PA k)).upd (fun v => v.modify dbg z.col (t.upd sa.2 (sa.1.mat 1 (tileAt t.axis z.row z.col)))) sa.1)
    (fun z => z.col) F (by
      intro z hz g v v' hg hF
      rw [mem_doneTiles, mem_doneLines h hr hk, Params2.on_get] at hz
      obtain ⟨hi, hj⟩ := hz
      have gi0 := hpo.gl_nonneg hi.1
      have gi1 : (PB.at' t.axis.orth r).gl z.row < (PB.get t.axis.orth).dist.nrTiles := hpo.gl_lt hi.1 hi.2.1
      have hnl : (PB.get t.axis.orth).dist.nrTiles = (PA.get t.axis).dist.nrTiles := by rw [h.lines]; exact hn
      have gi1' : (PB.at' t.axis.orth r).gl z.row < nA := by show _ < (PA.get t.axis.orth).dist.nrTiles; omega
      have ci := hpo.content_at (i := z.row) (s := t.start k) (e := nA) W hi.1 hst.1 (by show 0 ≤ (PA.get t.axis.orth).dist.nrTiles; omega) (by
        unfold start
        have := hi.2.2
        split <;> rename_i hl
        · rw [if_pos hl] at this; omega
        · exact gi0) gi1'
      have hWi : W ((PB.at' t.axis.orth r).gl z.row) = a (gi z.row, k) := by
        have := hW (gi z.row) (by
          have := hi.2.2
          have q : gi z.row = ((PB.at' t.axis.orth r).gl z.row).toNat := rfl
          split <;> rename_i hl
          · rw [if_pos hl] at this; omega
          · rw [if_neg hl] at this; omega)
        rwa [show ((gi z.row : Nat) : Int) = (PB.at' t.axis.orth r).gl z.row from by show ((((PB.at' t.axis.orth r).gl z.row).toNat : Nat) : Int) = _; omega] at this
      rw [hWi] at ci
      obtain ⟨_, cj, _⟩ := hloc z.col hj.1 hj.2
      refine .one fun x hx => ?_
      obtain ⟨x1, e1, h1⟩ := hx.read hE hr (it := t.iterG PA k) (n := 0) (dbg := dbg) (i := z.row) (v := a (gi z.row, k))
        (Int.le_of_lt hkpos) hst.1 (by show InRange (PA.at' t.axis.orth r) _ _ _; rw [hab]; exact ci.2)
        (by show content (PA.at' t.axis.orth r) _ _ _ _ = _; rw [hab]; exact ci.1)
      have hmat : x1.mat 1 (tileAt t.axis z.row z.col) = b (gi z.row, gj z.col) := by
        rw [h1.mat]
        exact hv z.row z.col hi.1 hi.2.1 hj.1 hj.2
      have hcur := h1.cur 1
      rw [Abs.setPan_same] at hcur
      have hfv : VPanel.fits ((t.env PA PB).tall 1) v kz (tsz ((t.env PA PB).crd 1 r) z.col) = true :=
        (hcur.full z.col v hj.1 (by rw [crd1]; exact hj.2) hg).1
      obtain ⟨v2, e2, h2, h3⟩ := hcur.modify (dbg := dbg) (h1.own 1 hown) (hE.crd 1 hr) (Int.le_of_lt hkpos) (le_refl _)
        (by rw [crd1]; exact cj) hg (g := t.upd (a (gi z.row, k)) (b (gi z.row, gj z.col))) hF (by
          rw [VPanel.fits_congr (hkeep _ _ _ _ hF)]
          exact hfv)
      refine ⟨_, by rw [e1, Option.bind_some]; dsimp only; rw [hmat]; exact upd_some e2, ?_⟩
      have := h1.setPanel (n := 1) (d := ⟨kz, 0, nB, set1 g z.col (some v')⟩) h2 fun _ => h3
      have heq : (A0.setPan 1 ⟨(A0.cur 1).ax, (A0.cur 1).s, (A0.cur 1).e, g⟩).setPan 1 ⟨kz, 0, nB, set1 g z.col (some v')⟩ =
          A0.setPan 1 ⟨(A0.cur 1).ax, (A0.cur 1).s, (A0.cur 1).e, set1 g z.col (some v')⟩ := by
        unfold Abs.setPan
        dsimp only
        rw [set1_set1]
        rfl
      rw [← heq]
      exact this) (by
      intro z hz
      rw [mem_doneTiles, Params2.on_get] at hz
      obtain ⟨c1, c2, c3⟩ := hloc z.col hz.2.1 hz.2.2
      exact ⟨_, _, c1, c3⟩)
  have hprog : t.accumulate dbg (PA.on r) (PB.on r) k = (t.doneTiles (PB.on r) k).map (fun z => fun s => ((DSt.panel 0 (t.iterG PA k)).read dbg z.row s).bind fun sa =>
      (DSt.panel 1 (t.iterG PA k)).upd (fun v => v.modify dbg z.col (t.upd sa.2 (sa.1.mat 1 (tileAt t.axis z.row z.col)))) sa.1) := by
    unfold accumulate
    simp only [iter_on]
  rw [hprog]
  refine key.to ?_
  refine Eq.trans ?_ (Abs.of2_1 _ _ _ _ _)
  congr 3
  show _ = (⟨kz, 0, nB, fun j => (content (PB.at' t.axis r) 0 nB zero j).bind fun v =>
    ((t.doneTiles (PB.on r) k).filter fun y => y.col = j).foldlM (fun v y => F y v) v⟩ : PanD K)
  congr 1
  funext j
  by_cases hj : 0 ≤ j ∧ j < (PB.at' t.axis r).dist.localNrTiles
  · obtain ⟨c1, c2, c3⟩ := hloc j hj.1 hj.2
    rw [c1, Option.bind_some, c3]
    have g0 := hpb.gl_nonneg hj.1
    have g1 : (PB.at' t.axis r).gl j < (PB.get t.axis).dist.nrTiles := hpb.gl_lt hj.1 hj.2
    exact (hpb.content_at (i := j) (s := 0) (e := nB) (fun j => V j.toNat) hj.1 (le_refl _) hpb.nrTiles_nonneg g0 g1).1
  · have hno : ∀ W' : Int → Blk K, content (PB.at' t.axis r) 0 nB W' j = none := by
      intro W'
      unfold content
      rw [if_neg]
      rintro ⟨h1, h2⟩
      have q1 : (PB.at' t.axis r).dist.next_local_tile_from_global_tile 0 = 0 := hpb.nx_zero
      have q2 : (PB.at' t.axis r).dist.next_local_tile_from_global_tile nB = _ := hpb.nx_all
      exact hj ⟨by omega, by omega⟩
    rw [hno, hno, Option.bind_none]

/-- The tiles of line `k` of B. -/
theorem solve_step' (h : TriDist t.axis.orth PA PB) {sigma : K} {dbg : Bool} {k : Nat} (hk : k < (PA.get t.axis).ntn) {a b b' : Tiles K} {Z V : Nat → Blk K}
    {W : Int → Blk K} (hW : W k = a (k, k))
    (hd : ∀ j < (PB.get t.axis).ntn, (blkAdd sigma (Z j) (b (k, j))).bind (t.diag (a (k, k))) = some (b' (k, j)))
    {r : Coord2} (hr : r ∈ PB.ranks) {m : Nat → Coord2 → Blk K} (hv : LView PB t.axis r b (m 1)) {rest : Nat → PanD K} :
    LStep (t.env PA PB) r (rrIdx (t.iterG PA k)) ((dirRange t.jUp 0 ((PB.on r).get t.axis).localNrTiles).flatMap fun j => t.solveTile dbg (PA.on r) k sigma j)
      (Abs.of m rest [⟨(PA.get t.axis).dist.global_tile_size_of k, t.start k, (PA.get t.axis.orth).dist.nrTiles,
          content (PA.at' t.axis.orth r) (t.start k) (PA.get t.axis.orth).dist.nrTiles W⟩,
        ⟨(PA.get t.axis).dist.global_tile_size_of k, 0, (PB.get t.axis).dist.nrTiles,
        content (PB.at' t.axis r) 0 (PB.get t.axis).dist.nrTiles (fun j => if r.get t.axis.orth = (PA.get t.axis.orth).dist.rank_global_tile k then
          Z j.toNat else V j.toNat)⟩])
      (Abs.of (t.afterDiag PA PB k b' r m) rest [⟨(PA.get t.axis).dist.global_tile_size_of k, t.start k, (PA.get t.axis.orth).dist.nrTiles,
          content (PA.at' t.axis.orth r) (t.start k) (PA.get t.axis.orth).dist.nrTiles W⟩,
        ⟨(PA.get t.axis).dist.global_tile_size_of k, 0, (PB.get t.axis).dist.nrTiles,
        content (PB.at' t.axis r) 0 (PB.get t.axis).dist.nrTiles (fun j => if r.get t.axis.orth = (PA.get t.axis.orth).dist.rank_global_tile k then
          Z j.toNat else V j.toNat)⟩]) := by
  have hE := env_ok h
  have hn := h.nr_eq t.axis.orth t.axis
  have hkA : (k : Int) < (PA.get t.axis).dist.nrTiles := by unfold Params.ntn at hk; omega
  have hkpos := (h.plainA t.axis).size_pos (t := (k : Int)) (by omega) hkA
  have hpo : Plain (PB.at' t.axis.orth r) := Params2.plain (h.plainB _) hr
  have hpb : Plain (PB.at' t.axis r) := Params2.plain (h.plainB _) hr
  have hab : PA.at' t.axis.orth r = PB.at' t.axis.orth r := by
    show (PA.get t.axis.orth).onRank _ = (PB.get t.axis.orth).onRank _
    rw [h.lines]
  have hst : 0 ≤ t.start k ∧ t.start k ≤ k := by unfold start; split <;> omega
  by_cases ho : r.get t.axis.orth = (PA.get t.axis.orth).dist.rank_global_tile k
  · simp only [if_pos ho]
    let kz := (PA.get t.axis).dist.global_tile_size_of k
    let nA := (PA.get t.axis.orth).dist.nrTiles
    let nB := (PB.get t.axis).dist.nrTiles
    let kl := (PB.at' t.axis.orth r).lc k
    let gj : Int → Nat := fun j => ((PB.at' t.axis r).gl j).toNat
    let A0 : Abs K := Abs.of m rest [⟨kz, t.start k, nA, content (PA.at' t.axis.orth r) (t.start k) nA W⟩,
          ⟨kz, 0, nB, content (PB.at' t.axis r) 0 nB fun j => Z j.toNat⟩]
    have hown : (PB.at' t.axis.orth r).dist.rank_global_tile k = (PB.at' t.axis.orth r).rank := by
      show (PB.get t.axis.orth).dist.rank_global_tile k = r.get t.axis.orth
      rw [h.lines]
      exact ho.symm
    have hkB : (k : Int) < (PB.at' t.axis.orth r).dist.nrTiles := by
      show (k : Int) < (PB.get t.axis.orth).dist.nrTiles
      rw [h.lines]; omega
    obtain ⟨kl0, kl1⟩ := hpo.lc_bounds (t := (k : Int)) (by omega) hkB hown
    have hglk : (PB.at' t.axis.orth r).gl kl = k := hpo.gl_lc (by omega) hown
    have hnx : (PA.at' t.axis.orth r).dist.next_local_tile_from_global_tile k = kl := by
      rw [hab]
      exact (hpo.lc_nx (by omega) hown).symm
    have hprog : ((dirRange t.jUp 0 ((PB.on r).get t.axis).localNrTiles).flatMap fun j => t.solveTile dbg (PA.on r) k sigma j) =
        ((dirRange t.jUp 0 (PB.at' t.axis r).dist.localNrTiles).flatMap fun j =>
        [fun s => ((DSt.panel 1 (t.iterG PA k)).read dbg j s).bind fun sb => DSt.task 1 (tileAt t.axis kl j) (blkAdd sigma sb.2) sb.1,
         fun s => ((DSt.panel 0 (t.iterG PA k)).read dbg kl s).bind fun sa => DSt.task 1 (tileAt t.axis kl j) (t.diag sa.2) sa.1]) := by
      rw [Params2.on_get]
      refine List.flatMap_congr fun j _ => ?_
      unfold solveTile
      simp only [iter_on, Params2.on_get]
      rw [if_pos (show ((PA.get t.axis.orth).onRank (r.get t.axis.orth)).dist.rank_global_tile k = ((PA.get t.axis.orth).onRank (r.get t.axis.orth)).dist.rank from ho.symm)]
      rw [show ((PA.get t.axis.orth).onRank (r.get t.axis.orth)).dist.next_local_tile_from_global_tile k = kl from hnx]
    rw [hprog]
    have key := LStep.tasksL (E := t.env PA PB) (r := r) (w := rrIdx (t.iterG PA k)) (a := A0) (n := 1)
      (dirRange t.jUp 0 (PB.at' t.axis r).dist.localNrTiles) (fun j =>
        [fun s => ((DSt.panel 1 (t.iterG PA k)).read dbg j s).bind fun sb => DSt.task 1 (tileAt t.axis kl j) (blkAdd sigma sb.2) sb.1,
         fun s => ((DSt.panel 0 (t.iterG PA k)).read dbg kl s).bind fun sa => DSt.task 1 (tileAt t.axis kl j) (t.diag sa.2) sa.1])
      (fun j => tileAt t.axis kl j) (t.newB PB b' r) ((dirRange_nodup _ _ _).map fun x y hxy => (tileAt_inj hxy).2) (by
      intro j hj m1 hm
      rw [mem_dirRange] at hj
      have g0 := hpb.gl_nonneg hj.1
      have g1 : (PB.at' t.axis r).gl j < (PB.get t.axis).dist.nrTiles := hpb.gl_lt hj.1 hj.2
      have hjn : gj j < (PB.get t.axis).ntn := by show ((PB.at' t.axis r).gl j).toNat < (PB.get t.axis).dist.nrTiles.toNat; omega
      have hold : m1 (tileAt t.axis kl j) = b (k, gj j) := by
        rw [hm]
        have := hv kl j kl0 kl1 hj.1 hj.2
        rw [hglk] at this
        exact this
      have hdj := hd (gj j) hjn
      rw [Option.bind_eq_some_iff] at hdj
      obtain ⟨w1, d1, d2⟩ := hdj
      have cj := hpb.content_at (i := j) (s := 0) (e := nB) (fun j => Z j.toNat) hj.1 (le_refl _) hpb.nrTiles_nonneg g0 g1
      have ck := hpo.content_at (i := kl) (s := t.start k) (e := nA) W kl0 hst.1 (by show 0 ≤ (PA.get t.axis.orth).dist.nrTiles; omega)
        (by rw [hglk]; exact hst.2) (by rw [hglk]; show (k : Int) < (PA.get t.axis.orth).dist.nrTiles; omega)
      rw [hglk, hW] at ck
      have hnew : t.newB PB b' r (tileAt t.axis kl j) = b' (k, gj j) := by
        rw [newB_at, hglk]
        rfl
      have hss : ∀ x y : Blk K, set1 (set1 m1 (tileAt t.axis kl j) x) (tileAt t.axis kl j) y = set1 m1 (tileAt t.axis kl j) y := fun x y => set1_set1 _ _ _ _
      refine LStep.cons (b := A0.setMat 1 (set1 m1 (tileAt t.axis kl j) w1)) (.one fun x hx => ?_) (.one fun x hx => ?_)
      · obtain ⟨x1, e1, h1⟩ := hx.read hE hr (it := t.iterG PA k) (n := 1) (dbg := dbg) (i := j) (v := Z (gj j)) (Int.le_of_lt hkpos) (le_refl _)
          (by rw [crd1]; exact cj.2) cj.1
        obtain ⟨x2, e2, h2⟩ := h1.task (n := 1) (idx := tileAt t.axis kl j) (f := blkAdd sigma (Z (gj j))) (v := w1) (by
          rw [Abs.setMat_same, hold]
          exact d1)
        refine ⟨x2, by rw [e1, Option.bind_some]; exact e2, ?_⟩
        have : (A0.setMat 1 m1).setMat 1 (set1 ((A0.setMat 1 m1).mat 1) (tileAt t.axis kl j) w1) = A0.setMat 1 (set1 m1 (tileAt t.axis kl j) w1) := by
          rw [Abs.setMat_same]
          unfold Abs.setMat
          dsimp only
          rw [set1_set1]
        rw [← this]
        exact h2
      · obtain ⟨x1, e1, h1⟩ := hx.read hE hr (it := t.iterG PA k) (n := 0) (dbg := dbg) (i := kl) (v := a (k, k)) (Int.le_of_lt hkpos) hst.1
          (by show InRange (PA.at' t.axis.orth r) _ _ _; rw [hab]; exact ck.2) (by show content (PA.at' t.axis.orth r) _ _ _ _ = _; rw [hab]; exact ck.1)
        obtain ⟨x2, e2, h2⟩ := h1.task (n := 1) (idx := tileAt t.axis kl j) (f := t.diag (a (k, k))) (v := t.newB PB b' r (tileAt t.axis kl j)) (by
          rw [Abs.setMat_same, set1_same, hnew]
          exact d2)
        refine ⟨x2, by rw [e1, Option.bind_some]; exact e2, ?_⟩
        have : (A0.setMat 1 (set1 m1 (tileAt t.axis kl j) w1)).setMat 1 (set1 ((A0.setMat 1 (set1 m1 (tileAt t.axis kl j) w1)).mat 1) (tileAt t.axis kl j)
            (t.newB PB b' r (tileAt t.axis kl j))) = A0.setMat 1 (set1 m1 (tileAt t.axis kl j) (t.newB PB b' r (tileAt t.axis kl j))) := by
          rw [Abs.setMat_same, hss]
          unfold Abs.setMat
          dsimp only
          rw [set1_set1]
        rw [← this]
        exact h2)
    refine key.to ?_
    unfold afterDiag
    have : (fun z => if r.get t.axis.orth = (PA.get t.axis.orth).dist.rank_global_tile k ∧
        z ∈ t.diagPos PB r k (dirRange t.jUp 0 (PB.at' t.axis r).dist.localNrTiles) then t.newB PB b' r z else m 1 z) =
        fun z => if z ∈ (dirRange t.jUp 0 (PB.at' t.axis r).dist.localNrTiles).map (fun j => tileAt t.axis kl j) then t.newB PB b' r z else m 1 z := by
      funext z
      refine if_congr ?_ rfl rfl
      exact ⟨fun hc => hc.2, fun hc => ⟨ho, hc⟩⟩
    rw [this]
    rfl
  · have hnil : ((dirRange t.jUp 0 ((PB.on r).get t.axis).localNrTiles).flatMap fun j => t.solveTile dbg (PA.on r) k sigma j) = [] := by
      refine List.flatMap_eq_nil_iff.2 fun j _ => ?_
      unfold solveTile
      simp only [Params2.on_get]
      rw [if_neg]
      exact fun hc => ho hc.symm
    rw [hnil]
    refine (LStep.nil _).to ?_
    congr 1
    unfold afterDiag
    have : (fun z => if r.get t.axis.orth = (PA.get t.axis.orth).dist.rank_global_tile k ∧
            z ∈ t.diagPos PB r k (dirRange t.jUp 0 (PB.at' t.axis r).dist.localNrTiles) then t.newB PB b' r z else m 1 z) = m 1 := by
      funext z
      rw [if_neg (fun hc => ho hc.1)]
    rw [this, set1_self]

/-- One iteration of the solver with a transposed `op`. -/
theorem stepT_step (h : TriDist t.axis.orth PA PB) {sigma : K} {dbg : Bool} {junk : Coord2 → Int → Nat → Nat → Nat → K} {a b b' : Tiles K} {k : Nat}
    {V : Int → Nat → Blk K} {Z : Nat → Blk K} (hT : t.TileStepT PA PB sigma a b b' k V Z) {M : Coord2 → Nat → Coord2 → Blk K}
    (hM : ∀ r ∈ PB.ranks, LView PA t.axis r a (M r 0) ∧ LView PB t.axis r b (M r 1))
    {g : Glob (DSt K) (Blk K)} (hg : GIdle (t.env PA PB) M g) :
    ∃ g' M', Runs (fun r => if r ∈ PB.ranks then t.stepT dbg (junk r) (PA.on r) (PB.on r) k sigma else []) g g' ∧
      GIdle (t.env PA PB) M' g' ∧
      ∀ r ∈ PB.ranks, M' r 0 = M r 0 ∧ LView PA t.axis r a (M' r 0) ∧ LView PB t.axis r b' (M' r 1) := by
  have hE := env_ok h
  have hk := hT.lt
  have hn := h.nr_eq t.axis.orth t.axis
  have hkA : (k : Int) < (PA.get t.axis).dist.nrTiles := by unfold Params.ntn at hk; omega
  have hkpos := (h.plainA t.axis).size_pos (t := (k : Int)) (by omega) hkA
  have hst : 0 ≤ t.start k ∧ t.start k ≤ k := by unfold start; split <;> omega
  have hoB : 0 ≤ (PA.get t.axis.orth).dist.rank_global_tile k ∧ (PA.get t.axis.orth).dist.rank_global_tile k < (PB.get t.axis.orth).grid := by
    rw [h.lines]
    exact (h.plainA t.axis.orth).valid.wf.cyc.rank_range (t := (k : Int)) (by omega)
  have hWA : ∀ i : Nat, (if t.lower then k ≤ i else i ≤ k) → t.wA PA junk a k i = a (i, k) := by
    intro i hi
    unfold wA
    rw [if_pos]
    · rfl
    · cases hl : t.lower
      · rw [hl] at hi
        right
        simp only [Bool.false_eq_true, if_false] at hi
        omega
      · left; rfl
  obtain ⟨g', h1, h2⟩ := GStep.iter (E := t.env PA PB) (w := rrIdx (t.iterG PA k)) (M := M) (M' := fun r => t.afterDiag PA PB k b' r (M r))
    (p := fun r => t.stepT dbg (junk r) (PA.on r) (PB.on r) k sigma) (by
      intro ss se hss
      let rest : Coord2 → Nat → PanD K := fun r n => ⟨(t.env PA PB).tile n, ss r n, se r n, fun _ => none⟩
      let kz := (PA.get t.axis).dist.global_tile_size_of k
      let nA := (PA.get t.axis.orth).dist.nrTiles
      let nB := (PB.get t.axis).dist.nrTiles
      let W := t.wA PA junk a k
      let root := (PA.get t.axis.orth).dist.rank_global_tile k
      let zero : Int → Blk K := fun j => zeroTile (isTall t.axis.orth) kz ((PB.get t.axis).dist.global_tile_size_of j)
      let fA : Coord2 → Int → Option (Blk K) := fun r => content (PA.at' t.axis.orth r) (t.start k) nA W
      let f2 : Coord2 → Int → Option (Blk K) := fun r => content (PB.at' t.axis r) 0 nB zero
      let f3 : Coord2 → Int → Option (Blk K) := fun r => content (PB.at' t.axis r) 0 nB fun j => V (r.get t.axis.orth) j.toNat
      let f4 : Coord2 → Int → Option (Blk K) := fun r => content (PB.at' t.axis r) 0 nB fun j => if r.get t.axis.orth = root then Z j.toNat else V (r.get t.axis.orth) j.toNat
      let A2 : Coord2 → Abs K := fun r => Abs.of (M r) (rest r) [⟨kz, t.start k, nA, fA r⟩, ⟨kz, 0, nB, f2 r⟩]
      let A3 : Coord2 → Abs K := fun r => Abs.of (M r) (rest r) [⟨kz, t.start k, nA, fA r⟩, ⟨kz, 0, nB, f3 r⟩]
      let A4 : Coord2 → Abs K := fun r => Abs.of (M r) (rest r) [⟨kz, t.start k, nA, fA r⟩, ⟨kz, 0, nB, f4 r⟩]
      let A5 : Coord2 → Abs K := fun r => Abs.of (t.afterDiag PA PB k b' r (M r)) (rest r) [⟨kz, t.start k, nA, fA r⟩, ⟨kz, 0, nB, f4 r⟩]
      let A6 : Coord2 → Abs K := fun r => Abs.of (t.afterDiag PA PB k b' r (M r)) (rest r)
        [⟨(PA.get t.axis).tile, t.start k, nA, fun _ => none⟩, ⟨(PB.get t.axis.orth).tile, 0, nB, fun _ => none⟩]
      have G1 := panelA_step (dbg := dbg) (junk := junk) h hk hT.fitsA hM hss
      have G2 : GStep (t.env PA PB) (rrIdx (t.iterG PA k)) (fun r => ((irange 0 ((PB.on r).get t.axis).localNrTiles).map fun j =>
          (DSt.panel 1 (t.iterG PA k)).upd fun v => v.set0 dbg j).map Instr.loc) (t.absA PA PB junk a k M rest) A2 :=
        GStep.locals hE fun r hr => set0_step h hT.acc hk hr
      have G3 : GStep (t.env PA PB) (rrIdx (t.iterG PA k)) (fun r => (t.accumulate dbg (PA.on r) (PB.on r) k).map Instr.loc) A2 A3 :=
        GStep.locals hE fun r hr => by
          obtain ⟨r0, r1⟩ := Params2.mem_ranks.1 (show r ∈ PB.ranks from hr) t.axis.orth
          exact accum_step h hT.acc hT.keep hk hWA hr (hT.sums _ r0 r1) (hM r hr).2
      have G4 : GStep (t.env PA PB) (rrIdx (t.iterG PA k)) (fun r => reducePanel dbg t.axis.orth (PB.on r) root (DSt.panel 1 (t.iterG PA k)) 0 nB) A3 A4 := by
        refine (GStep.reduce hE 1 (dbg := dbg) (it := t.iterG PA k) (root := root) (show (decide (1 = 1) && t.accum) = true by rw [hT.acc]; rfl) hoB (ax := kz) (s := 0)
          (e := nB) (Int.le_of_lt hkpos) (le_refl _) (h.plainB t.axis).nrTiles_nonneg (fun q j => V q j.toNat) (fun j => Z j.toNat) ?_ ?_ (fun r _ => ?_)).to fun r _ => ?_
        · intro j h0 h1
          exact hT.total j.toNat (by show _ < (PB.get t.axis).dist.nrTiles.toNat; have : nB = (PB.get t.axis).dist.nrTiles := rfl; omega)
        · intro j h0 h1
          show VPanel.fits (isTall t.axis.orth) _ _ ((PB.get t.axis.orth.orth).dist.global_tile_size_of j) = true
          rw [orth_orth]
          have hj : j.toNat < (PB.get t.axis).ntn := by show _ < (PB.get t.axis).dist.nrTiles.toNat; have : nB = (PB.get t.axis).dist.nrTiles := rfl; omega
          have hq : ∀ q, 0 ≤ q → q < (PB.get t.axis.orth).grid → VPanel.fits (isTall t.axis.orth) (V q j.toNat) kz ((PB.get t.axis).dist.global_tile_size_of j) = true := by
            intro q q0 q1
            rw [VPanel.fits_congr (foldlM_keeps (fun v i v' hv => hT.keep _ _ _ _ hv) _ _ _ (hT.sums q q0 q1 _ hj)), show ((j.toNat : Nat) : Int) = j by omega]
            exact zeroTile_fits (Int.le_of_lt hkpos) (Int.le_of_lt ((h.plainB t.axis).size_pos h0 h1))
          have hg1 : 0 < (PB.get t.axis.orth).grid := by omega
          have htot := hT.total _ hj
          have hcons : irange 0 (PB.get t.axis.orth).grid = 0 :: irange 1 (PB.get t.axis.orth).grid := irange_cons hg1
          rw [hcons, List.map_cons] at htot
          rw [VPanel.fits_congr (sumBlk_keeps htot)]
          exact hq 0 (le_refl _) hg1
        · rw [crd1]
          rfl
        · rw [crd1]
          have : (fun j => if r.get t.axis.orth = root then Z j.toNat else V (r.get t.axis.orth) j.toNat) =
              (if r.get t.axis.orth = root then fun j : Int => Z j.toNat else fun j => V (r.get t.axis.orth) j.toNat) := by
            split <;> rfl
          show Abs.of (M r) (rest r) [⟨kz, t.start k, nA, fA r⟩, ⟨kz, 0, nB, content (PB.at' t.axis r) 0 nB fun j => if r.get t.axis.orth = root then Z j.toNat else V (r.get t.axis.orth) j.toNat⟩] = _
          rw [this]
          exact Abs.of2_1 _ _ _ _ _
      have G5 : GStep (t.env PA PB) (rrIdx (t.iterG PA k))
          (fun r => ((dirRange t.jUp 0 ((PB.on r).get t.axis).localNrTiles).flatMap fun j => t.solveTile dbg (PA.on r) k sigma j).map Instr.loc) A4 A5 :=
        GStep.locals hE fun r hr => solve_step' h hk (V := V (r.get t.axis.orth)) (hWA k (by split <;> exact le_refl _)) hT.diag hr (hM r hr).2
      have G6 : GStep (t.env PA PB) (rrIdx (t.iterG PA k)) (fun r => List.map Instr.loc
          [fun s => (DSt.panel 1 (t.iterG PA k)).upd (fun v => some v.reset) s, fun s => (DSt.panel 0 (t.iterG PA k)).upd (fun v => some v.reset) s]) A5 A6 := by
        refine GStep.locals hE fun r hr => ?_
        refine LStep.cons (b := Abs.of (t.afterDiag PA PB k b' r (M r)) (rest r) [⟨kz, t.start k, nA, fA r⟩, ⟨(PB.get t.axis.orth).tile, 0, nB, fun _ => none⟩]) ?_ ?_
        · exact (LStep.reset (n := 1)).to (Abs.of2_1 _ _ _ _ _)
        · exact (LStep.reset (n := 0)).to (Abs.of2_0 _ _ _ _ _)
      refine ⟨A6, (((((G1.append G2).append G3).append G4).append G5).append G6).congr fun r _ => ?_, fun r hr => ⟨rfl, fun n => ?_⟩⟩
      · unfold TriAlg.stepT
        simp only [iter_on, Params2.on_get]
        rfl
      · obtain ⟨s0, s1, s2⟩ := hss r hr n
        rcases n with _ | _ | n
        · refine ⟨rfl, rfl, hst.1, fun hl => ?_, fun _ => rfl⟩
          have hl' : (decide (0 = 0) && t.lower) = false := hl
          simp only [decide_true, Bool.true_and] at hl'
          show t.start k = 0
          unfold start
          rw [hl']
          rfl
        · exact ⟨rfl, rfl, le_refl _, fun _ => rfl, fun _ => by rw [crd1]; rfl⟩
        · exact ⟨rfl, rfl, s0, s1, s2⟩) hg
  refine ⟨g', _, h1, h2, fun r hr => ⟨rfl, (hM r hr).1, ?_⟩⟩
  intro i j hi hi' hj hj'
  have hpo : Plain (PB.at' t.axis.orth r) := Params2.plain (h.plainB _) hr
  have hpb : Plain (PB.at' t.axis r) := Params2.plain (h.plainB _) hr
  rw [afterDiag_at h b' hr (hM r hr).2 hi hi' hj hj', newB_at, newB_at]
  split
  · rfl
  · rename_i hg
    have gi0 := hpo.gl_nonneg hi
    have gi1 : (PB.at' t.axis.orth r).gl i < (PB.get t.axis.orth).dist.nrTiles := hpo.gl_lt hi hi'
    have gj0 := hpb.gl_nonneg hj
    have gj1 : (PB.at' t.axis r).gl j < (PB.get t.axis).dist.nrTiles := hpb.gl_lt hj hj'
    rw [h.lines, h.nr_eq t.axis.orth t.axis] at gi1
    exact (hT.rest _ (by unfold Params.ntn; omega) (by omega) _ (by unfold Params.ntn; omega)).symm

end TriAlg
end DLAF
