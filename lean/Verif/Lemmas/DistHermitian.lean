import Verif.Model.DistHermitian
import Verif.Spec.DistHerm
import Verif.Spec.DistMul
import Verif.Lemmas.DistGlobal
import Verif.Lemmas.DistSolverStep
import Mathlib.Algebra.BigOperators.Group.Finset.Basic
import Mathlib.Algebra.BigOperators.Intervals
/- The distributed Hermitian multiplication: one iteration. -/
namespace DLAF
variable {K : Type*}

/-- The panels of the Hermitian multiplication. -/
def hermEnv (PA PB PC : Params2) : VEnv where
  E := {
    G := PC.ranks
    pd := fun n => if n = 0 then PA else if n = 1 then PB else PC
    axis := fun n => if n = 0 then .Col else .Row
    tall := fun n => if n = 0 then true else false
    tile := fun n => if n = 0 then PA.col.tile else PA.row.tile
    freeS := fun n => if n = 0 then true else false
    freeE := fun _ => false
    own := fun n => if n = 2 then true else false }
  Q := fun n => if n = 0 then PA else if n = 1 then PB else PC

section
variable {PA PB PC : Params2}

theorem HermDist.ranksA (h : HermDist PA PB PC) : PA.ranks = PC.ranks :=
  ranks_congr (by rw [h.rowC]) (by rw [h.col]; exact h.grid.symm)
theorem HermDist.ranksB (h : HermDist PA PB PC) : PB.ranks = PC.ranks :=
  ranks_congr (by rw [h.rowC, h.rowB]) (by rw [h.col])

theorem hermEnv_ok (h : HermDist PA PB PC) : (hermEnv PA PB PC).OK := by
  have hpl : ∀ (n : Nat) (c : Coord), Plain ((if n = 0 then PA else if n = 1 then PB else PC : Params2).get c) := by
    intro n c
    split
    · cases c
      · exact h.aRow
      · exact h.aCol
    · split
      · cases c
        · show Plain PB.row; rw [h.rowB]; exact h.aRow
        · exact h.bCol
      · cases c
        · show Plain PC.row; rw [h.rowC]; exact h.aRow
        · show Plain PC.col; rw [h.col]; exact h.bCol
  have hrk : ∀ n : Nat, (if n = 0 then PA else if n = 1 then PB else PC : Params2).ranks = PC.ranks := by
    intro n
    split
    · exact h.ranksA
    · split
      · exact h.ranksB
      · rfl
  refine ⟨⟨fun n c => (hpl n c).toTiled, hrk, fun n => ?_, fun _ => hpl⟩, hpl, hrk⟩
  unfold hermEnv
  dsimp only
  have := h.aCol.tile_pos
  have := h.aRow.tile_pos
  split <;> omega

theorem mem_rowsTiles {dc : Distribution} {a b : Int} {z : Coord2} :
    z ∈ rowsTiles dc a b ↔ (a ≤ z.row ∧ z.row < b) ∧ 0 ≤ z.col ∧ z.col < dc.col.localNrTiles := by
  unfold rowsTiles
  simp only [List.mem_flatMap, List.mem_map, mem_irange]
  constructor
  · rintro ⟨j, hj, i, hi, rfl⟩; exact ⟨hi, hj⟩
  · rintro ⟨hi, hj⟩; exact ⟨z.col, hj, z.row, hi, rfl⟩

theorem rowsTiles_nodup (dc : Distribution) (a b : Int) : (rowsTiles dc a b).Nodup := by
  unfold rowsTiles
  rw [List.nodup_flatMap]
  refine ⟨fun j _ => (irange_nodup a b).map fun x y h => by simpa using h, ?_⟩
  refine (irange_nodup 0 _).imp ?_
  intro x y hxy z h1 h2
  rw [List.mem_map] at h1 h2
  obtain ⟨p, _, rfl⟩ := h1
  obtain ⟨q, _, h⟩ := h2
  exact hxy (by simpa using (congrArg Coord2.col h).symm)

variable [Field K] [StarRing K]

/-- The contributions of the rows in `S` to tile `(l, j)` of C. -/
def hermW (alpha : K) (R C : Nat) (a b : Tiles K) (l j : Nat) (S : Finset Nat) : Blk K :=
  ⟨R, C, fun r q => alpha * ∑ i ∈ S, (((a (i, l)).op .ConjTrans).mul (b (i, j))).e r q⟩

/-- The tiles of C after the update of row `l`. -/
def hermC1 (alpha bt : K) (a b : Tiles K) (l : Nat) (c : Tiles K) : Tiles K := fun z =>
  if z.1 = l then ⟨(c z).rows, (c z).cols, fun r q => alpha * (((a (l, l)).herm .Lower).mul (b (l, z.2))).e r q + bt * (c z).e r q⟩ else c z

/-- The tiles of C after iteration `l`. -/
def hermNext (alpha bt : K) (m : Nat) (a b : Tiles K) (l : Nat) (c : Tiles K) : Tiles K := fun z =>
  if z.1 < l then c z
  else if z.1 = l then ⟨(c z).rows, (c z).cols, fun r q => (alpha * (((a (l, l)).herm .Lower).mul (b (l, z.2))).e r q + bt * (c z).e r q) +
    alpha * ∑ i ∈ Finset.Ioo l m, (((a (i, l)).op .ConjTrans).mul (b (i, z.2))).e r q⟩
  else ⟨(c z).rows, (c z).cols, fun r q => alpha * ((a (z.1, l)).mul (b (l, z.2))).e r q + bt * (c z).e r q⟩

/-- The sum over the processes. -/
theorem sumBlk_exact {R C : Nat} (f : Int → Nat → Nat → K) : ∀ (qs : List Int) (q : Int) ,
    sumBlk ((q :: qs).map fun q => (⟨R, C, f q⟩ : Blk K)) = some ⟨R, C, fun r c => ((q :: qs).map fun q => f q r c).sum⟩ := by
  have key : ∀ (qs : List Int) (g : Nat → Nat → K), (qs.map fun q => (⟨R, C, f q⟩ : Blk K)).foldlM (fun a b => blkAdd 1 b a) ⟨R, C, g⟩ =
      some ⟨R, C, fun r c => g r c + (qs.map fun q => f q r c).sum⟩ := by
    intro qs
    induction qs with
    | nil => intro g; simp
    | cons q qs ih =>
      intro g
      rw [List.map_cons, List.foldlM_cons]
      unfold blkAdd
      rw [if_pos ⟨rfl, rfl⟩, Option.bind_eq_bind, Option.bind_some]
      have := ih fun r c => g r c + 1 * f q r c
      unfold blkAdd at this
      rw [this]
      congr 2
      funext r c
      rw [List.map_cons, List.sum_cons]
      ring
  intro qs q
  rw [List.map_cons]
  show List.foldlM _ _ _ = _
  rw [key]
  congr 2

theorem sum_owners {p : Params} (hp : Plain p) (S : Finset Nat) (f : Nat → K) :
    ((irange 0 p.grid).map fun q => ∑ i ∈ S.filter (fun i : Nat => p.dist.rank_global_tile i = q), f i).sum = ∑ i ∈ S, f i := by
  classical
  rw [← List.sum_toFinset _ (irange_nodup 0 p.grid)]
  refine (Finset.sum_fiberwise_of_maps_to (fun i _ => ?_) f)
  rw [List.mem_toFinset, mem_irange]
  exact hp.valid.wf.cyc.rank_range (t := (i : Int)) (by omega)

theorem GV.ofL_setM {m : Nat → Tiles K} {n : Nat} {c x : Tiles K} {rest : Coord2 → Nat → VP K} {L : List (Coord2 → VP K)} :
    (GV.ofL (set1 m n c) rest L).setM n x = GV.ofL (set1 m n x) rest L := by
  unfold GV.setM GV.ofL
  dsimp only
  rw [set1_set1]

/-- What is known about an iteration. -/
structure HermAt (PA PB PC : Params2) (m : Nat → Tiles K) (c : Tiles K) (l : Nat) : Prop where
  d : HermDist PA PB PC
  a : Shaped (m 0) PA.row.tileSizes PA.row.tileSizes PA.row.ntn PA.row.ntn
  b : Shaped (m 1) PA.row.tileSizes PB.col.tileSizes PA.row.ntn PB.col.ntn
  c : Shaped c PA.row.tileSizes PB.col.tileSizes PA.row.ntn PB.col.ntn
  l : l < PA.row.ntn

section steps
variable {m : Nat → Tiles K} {c : Tiles K} {l : Nat} {alpha beta : K} {dbg : Bool} (h : HermAt PA PB PC m c l) {rest : Coord2 → Nat → VP K}

/-- Column `l` of A. -/
def hermA (PA : Params2) (m : Nat → Tiles K) (l : Nat) : VP K := ⟨PA.row.dist.global_tile_size_of l, l, PA.row.dist.nrTiles, fun t => some (m 0 (t.toNat, l))⟩
/-- Row `l` of B. -/
def hermB (PA PB : Params2) (m : Nat → Tiles K) (l : Nat) : VP K := ⟨PA.row.dist.global_tile_size_of l, 0, PB.col.dist.nrTiles, fun t => some (m 1 (l, t.toNat))⟩
/-- A panel without tiles. -/
def emptyP (ax s e : Int) : VP K := ⟨ax, s, e, fun _ => none⟩

include h
theorem HermAt.facts : (l : Int) < PA.row.dist.nrTiles ∧ PA.col.dist.nrTiles = PA.row.dist.nrTiles ∧
    (∀ t, PA.col.dist.global_tile_size_of t = PA.row.dist.global_tile_size_of t) ∧ 0 < PA.row.dist.global_tile_size_of l ∧
    PA.row.dist.global_tile_size_of l ≤ PA.row.tile ∧ ((l : Int) ≠ PA.row.dist.nrTiles - 1 → PA.row.dist.global_tile_size_of l = PA.row.tile) := by
  have hl := h.l
  have h1 : (l : Int) < PA.row.dist.nrTiles := by unfold Params.ntn at hl; omega
  have hp := h.d.aRow.size_pos (t := (l : Int)) (by omega) h1
  have hle := h.d.aRow.size_le (t := (l : Int)) (by omega) h1
  exact ⟨h1, h.d.aCol.nrTiles_eq h.d.aRow h.d.size h.d.tile, fun t => h.d.aCol.tile_size_eq h.d.aRow h.d.size h.d.tile t, hp, hle.1,
    fun hc => hle.2 (by omega)⟩

theorem hermA_fits (t : Int) (h0 : (l : Int) ≤ t) (h1 : t < PA.row.dist.nrTiles) :
    VPanel.fits true (m 0 (t.toNat, l)) (PA.row.dist.global_tile_size_of l) (PA.row.dist.global_tile_size_of t) = true := by
  have hp := h.d.aRow.size_pos (t := t) (by omega) h1
  have hf := h.facts
  have := h.a t.toNat (by unfold Params.ntn; omega) l h.l
  unfold Params.tileSizes at this
  rw [show ((t.toNat : Nat) : Int) = t by omega] at this
  unfold VPanel.fits
  simp only [if_true, Bool.and_eq_true, decide_eq_true_eq]
  rw [this.1, this.2]
  omega

theorem hermB_fits (t : Int) (h0 : 0 ≤ t) (h1 : t < PB.col.dist.nrTiles) :
    VPanel.fits false (m 1 (l, t.toNat)) (PA.row.dist.global_tile_size_of l) (PB.col.dist.global_tile_size_of t) = true := by
  have hp := h.d.bCol.size_pos (t := t) (by omega) h1
  have hf := h.facts
  have := h.b l h.l t.toNat (by unfold Params.ntn; omega)
  unfold Params.tileSizes at this
  rw [show ((t.toNat : Nat) : Int) = t by omega] at this
  unfold VPanel.fits
  simp only [Bool.false_eq_true, if_false, Bool.and_eq_true, decide_eq_true_eq]
  rw [this.1, this.2]
  omega

theorem hermPrepA_step {ss : Coord2 → Int} (hss : ∀ r ∈ PC.ranks, 0 ≤ ss r) {r : Coord2} (hr : r ∈ PC.ranks) :
    VL (hermEnv PA PB PC) r (rrIdx l) (hermPrepA dbg (PA.on r) l)
      (GV.ofL (set1 m 2 c) rest [fun r => emptyP PA.col.tile (ss r) PA.row.dist.nrTiles, fun _ => emptyP PA.row.tile 0 PB.col.dist.nrTiles,
        fun _ => emptyP PA.row.tile 0 PB.col.dist.nrTiles])
      (GV.ofL (set1 m 2 c) rest [fun r => if r.col = PA.col.dist.rank_global_tile l then hermA PA m l else emptyP (PA.row.dist.global_tile_size_of l) l PA.row.dist.nrTiles,
        fun _ => emptyP (PA.row.dist.global_tile_size_of l) 0 PB.col.dist.nrTiles,
        fun _ => emptyP (PA.row.dist.global_tile_size_of l) 0 PB.col.dist.nrTiles]) := by
  have hV := hermEnv_ok h.d
  obtain ⟨f1, f2, f3, f4, f5, f6⟩ := h.facts
  have hPA : PA.ranks = PC.ranks := h.d.ranksA
  have qr : Plain (PA.at' .Row r) := Params2.plain (c := .Row) h.d.aRow (hPA ▸ hr)
  have qc : Plain (PA.at' .Col r) := Params2.plain (c := .Col) h.d.aCol (hPA ▸ hr)
  have hsz : (PA.on r).col.global_tile_size_of l = PA.row.dist.global_tile_size_of l := f3 l
  unfold hermPrepA
  refine VL.append (b := GV.ofL (set1 m 2 c) rest [fun _ => emptyP (PA.row.dist.global_tile_size_of l) l PA.row.dist.nrTiles,
        fun _ => emptyP (PA.row.dist.global_tile_size_of l) 0 PB.col.dist.nrTiles,
        fun _ => emptyP (PA.row.dist.global_tile_size_of l) 0 PB.col.dist.nrTiles]) (VL.append (b := GV.ofL (set1 m 2 c) rest
        [fun _ => emptyP PA.col.tile l PA.row.dist.nrTiles,
        fun _ => emptyP PA.row.tile 0 PB.col.dist.nrTiles, fun _ => emptyP PA.row.tile 0 PB.col.dist.nrTiles]) ?_ ?_) ?_
  · refine (VF.one (VF.setRangeStart hV hr (n := 0) (it := l) (dbg := dbg) (s := l) (by omega) ?_ rfl)).to
      (GV.ofL_to (n := 0) (by simp) (fun _ => emptyP PA.col.tile l PA.row.dist.nrTiles) rfl rfl rfl)
    show (l : Int) ≤ PA.row.dist.nrTiles
    omega
  · refine .ite (fun hc => ?_) fun hc => ?_
    · rw [hsz]
      refine VL.cons (b := GV.ofL (set1 m 2 c) rest
        [fun _ => emptyP (PA.row.dist.global_tile_size_of l) l PA.row.dist.nrTiles,
        fun _ => emptyP PA.row.tile 0 PB.col.dist.nrTiles, fun _ => emptyP PA.row.tile 0 PB.col.dist.nrTiles]) ?_ (VL.cons (b := GV.ofL (set1 m 2 c) rest
        [fun _ => emptyP (PA.row.dist.global_tile_size_of l) l PA.row.dist.nrTiles,
        fun _ => emptyP (PA.row.dist.global_tile_size_of l) 0 PB.col.dist.nrTiles, fun _ => emptyP PA.row.tile 0 PB.col.dist.nrTiles]) ?_ (VF.one ?_))
      · refine (VF.setDim (n := 0) (it := l) (dbg := dbg) f4 ?_ rfl).to
          (GV.ofL_to (n := 0) (by simp) (fun _ => emptyP (PA.row.dist.global_tile_size_of l) l PA.row.dist.nrTiles) rfl rfl rfl)
        show _ ≤ PA.col.tile
        rw [h.d.tile]; exact f5
      · exact (VF.setDim (n := 1) (it := l) (dbg := dbg) f4 f5 rfl).to
          (GV.ofL_to (n := 1) (by simp) (fun _ => emptyP (PA.row.dist.global_tile_size_of l) 0 PB.col.dist.nrTiles) rfl rfl rfl)
      · exact (VF.setDim (n := 2) (it := l) (dbg := dbg) f4 f5 rfl).to
          (GV.ofL_to (n := 2) (by simp) (fun _ => emptyP (PA.row.dist.global_tile_size_of l) 0 PB.col.dist.nrTiles) rfl rfl rfl)
    · have e : PA.row.dist.global_tile_size_of l = PA.row.tile := f6 hc
      rw [e, h.d.tile]
      exact .nil _
  · refine .ite (fun hc => ?_) fun hc => ?_
    · have ho : PA.col.dist.rank_global_tile l = r.col := hc.symm
      refine (VL.linkCol hV hr (n := 0) (q := 0) (it := l) (dbg := dbg) (s := l) (e := PA.row.dist.nrTiles) (k := l) rfl rfl rfl (by omega) (by omega) rfl ?_
        (by show (l : Int) < PA.col.dist.nrTiles; omega) ho ?_ rfl).to (GV.ofL_to (n := 0) (by simp) _ rfl ?_ rfl)
      · intro i
        rw [mem_irange]
        exact and_congr Iff.rfl (by rw [show (((hermEnv PA PB PC).Q 0).at' .Row r).nx PA.row.dist.nrTiles = (PA.at' .Row r).dist.localNrTiles from qr.nx_all]; exact Iff.rfl)
      · exact fun t h0 h1 => hermA_fits h t h0 h1
      · beta_reduce
        rw [if_pos ho.symm]
        rfl
    · refine (VL.nil _).to ⟨fun _ _ _ => rfl, fun n => ?_⟩
      rcases n with _ | _ | _ | n
      · show _ = VP.loc _ (if r.col = PA.col.dist.rank_global_tile l then _ else _)
        rw [if_neg (show ¬ r.col = PA.col.dist.rank_global_tile l from hc)]
        rfl
      · rfl
      · rfl
      · rfl

omit h in
/-- Row `q` of the processes owns these rows below `l`. -/
def hermOwn (PA : Params2) (l : Nat) (q : Int) : Finset Nat := (Finset.Ioo l PA.row.ntn).filter fun i : Nat => PA.row.dist.rank_global_tile i = q

omit h in
/-- The panel of C. -/
def hermP (alpha : K) (PA PB : Params2) (m : Nat → Tiles K) (l : Nat) (S : Int → Finset Nat) : VP K :=
  ⟨PA.row.dist.global_tile_size_of l, 0, PB.col.dist.nrTiles,
    fun t => some (hermW alpha (PA.row.tileSizes l) (PB.col.tileSizes t.toNat) (m 0) (m 1) l t.toNat (S t))⟩

theorem HermAt.plains {r : Coord2} (hr : r ∈ PC.ranks) : Plain (PA.at' .Row r) ∧ Plain (PA.at' .Col r) ∧ Plain (PB.at' .Col r) ∧
    PB.at' .Row r = PA.at' .Row r ∧ PC.at' .Row r = PA.at' .Row r ∧ PC.at' .Col r = PB.at' .Col r := by
  refine ⟨Params2.plain (c := .Row) h.d.aRow (h.d.ranksA ▸ hr), Params2.plain (c := .Col) h.d.aCol (h.d.ranksA ▸ hr),
    Params2.plain (c := .Col) h.d.bCol (h.d.ranksB ▸ hr), ?_, ?_, ?_⟩
  · show (PB.row).onRank _ = (PA.row).onRank _; rw [h.d.rowB]
  · show (PC.row).onRank _ = (PA.row).onRank _; rw [h.d.rowC]
  · show (PC.col).onRank _ = (PB.col).onRank _; rw [h.d.col]

theorem hermPrepB_step {r : Coord2} (hr : r ∈ PC.ranks) {dA dC : Coord2 → VP K} :
    VL (hermEnv PA PB PC) r (rrIdx l) (hermPrepB dbg (PA.on r) (PB.on r) (PC.on r) l)
      (GV.ofL (set1 m 2 c) rest [dA, fun _ => emptyP (PA.row.dist.global_tile_size_of l) 0 PB.col.dist.nrTiles, dC])
      (GV.ofL (set1 m 2 c) rest [dA, fun r => if r.row = PA.row.dist.rank_global_tile l then hermB PA PB m l else
        emptyP (PA.row.dist.global_tile_size_of l) 0 PB.col.dist.nrTiles, dC]) := by
  have hV := hermEnv_ok h.d
  obtain ⟨f1, f2, f3, f4, f5, f6⟩ := h.facts
  obtain ⟨qr, qc, qb, eB, eC, eC'⟩ := h.plains hr
  unfold hermPrepB
  refine .ite (fun hc => ?_) fun hc => ?_
  · have ho : PA.row.dist.rank_global_tile l = r.row := hc.symm
    rw [show (PC.on r).row.next_local_tile_from_global_tile l = (((hermEnv PA PB PC).Q 1).at' .Row r).nx l from by
      show (PC.at' .Row r).nx l = (PB.at' .Row r).nx l
      rw [eB, eC]]
    refine (VL.linkRow hV hr (n := 1) (q := 1) (it := l) (dbg := dbg) (s := 0) (e := PB.col.dist.nrTiles) (k := l) rfl rfl rfl (by omega)
      h.d.bCol.nrTiles_nonneg rfl ?_ ?_ ?_ ?_ rfl).to (GV.ofL_to (n := 1) (by simp) _ rfl ?_ rfl)
    · intro i
      rw [mem_irange, show (((hermEnv PA PB PC).Q 1).at' .Col r).nx PB.col.dist.nrTiles = (PB.at' .Col r).dist.localNrTiles from qb.nx_all,
        show (((hermEnv PA PB PC).Q 1).at' .Col r).nx 0 = 0 from qb.nx_zero]
      exact Iff.rfl
    · show (l : Int) < PB.row.dist.nrTiles
      rw [h.d.rowB]
      exact f1
    · show PB.row.dist.rank_global_tile l = r.row
      rw [h.d.rowB]
      exact ho
    · exact fun t h0 h1 => hermB_fits h t h0 h1
    · beta_reduce
      rw [if_pos ho.symm]
      rfl
  · refine (VL.nil _).to ⟨fun _ _ _ => rfl, fun n => ?_⟩
    rcases n with _ | _ | _ | n
    · rfl
    · show _ = VP.loc _ (if r.row = PA.row.dist.rank_global_tile l then _ else _)
      rw [if_neg (show ¬ r.row = PA.row.dist.rank_global_tile l from hc)]
      rfl
    · rfl
    · rfl

/-- A local tile of C. -/
theorem HermAt.tile {r z : Coord2} (hr : r ∈ PC.ranks) (hz : (hermEnv PA PB PC).In 2 r z) :
    ∃ i j : Nat, i < PA.row.ntn ∧ j < PB.col.ntn ∧ (hermEnv PA PB PC).g 2 r z = (i, j) ∧ (PA.at' .Row r).gl z.row = i ∧ (PB.at' .Col r).gl z.col = j ∧
      PA.row.dist.rank_global_tile i = r.row := by
  obtain ⟨qr, qc, qb, eB, eC, eC'⟩ := h.plains hr
  have z1 : 0 ≤ z.row ∧ z.row < (PC.at' .Row r).dist.localNrTiles := hz.1
  have z2 : 0 ≤ z.col ∧ z.col < (PC.at' .Col r).dist.localNrTiles := hz.2
  rw [eC] at z1
  rw [eC'] at z2
  have a0 := qr.gl_nonneg z1.1
  have a1 : (PA.at' .Row r).gl z.row < PA.row.dist.nrTiles := qr.gl_lt z1.1 z1.2
  have b0 := qb.gl_nonneg z2.1
  have b1 : (PB.at' .Col r).gl z.col < PB.col.dist.nrTiles := qb.gl_lt z2.1 z2.2
  have ow : PA.row.dist.rank_global_tile ((PA.at' .Row r).gl z.row) = r.row := qr.gl_own z1.1
  refine ⟨((PA.at' .Row r).gl z.row).toNat, ((PB.at' .Col r).gl z.col).toNat, by unfold Params.ntn; omega, by unfold Params.ntn; omega, ?_, by omega, by omega, ?_⟩
  · show (((PC.at' .Row r).gl z.row).toNat, ((PC.at' .Col r).gl z.col).toNat) = _
    rw [eC, eC']
  · rw [show ((((PA.at' .Row r).gl z.row).toNat : Nat) : Int) = (PA.at' .Row r).gl z.row by omega]
    exact ow

theorem HermAt.mem_rows {r z : Coord2} (hr : r ∈ PC.ranks) {s e : Nat} (he : e ≤ PA.row.ntn) :
    z ∈ rowsTiles (PC.on r) ((PC.at' .Row r).nx s) ((PC.at' .Row r).nx e) ↔
      (hermEnv PA PB PC).In 2 r z ∧ s ≤ ((hermEnv PA PB PC).g 2 r z).1 ∧ ((hermEnv PA PB PC).g 2 r z).1 < e := by
  obtain ⟨qr, qc, qb, eB, eC, eC'⟩ := h.plains hr
  have q : Plain (PC.at' .Row r) := by rw [eC]; exact qr
  rw [mem_rowsTiles, q.mem_nx (by omega) (by omega)]
  show (_ ∧ 0 ≤ z.col ∧ z.col < (PC.at' .Col r).dist.localNrTiles) ↔ ((0 ≤ z.row ∧ z.row < (PC.at' .Row r).dist.localNrTiles) ∧
    0 ≤ z.col ∧ z.col < (PC.at' .Col r).dist.localNrTiles) ∧ s ≤ ((PC.at' .Row r).gl z.row).toNat ∧ ((PC.at' .Row r).gl z.row).toNat < e
  have hall := q.nx_all
  have hn : (e : Int) ≤ (PC.at' .Row r).dist.nrTiles := by
    rw [eC]
    show (e : Int) ≤ PA.row.dist.nrTiles
    unfold Params.ntn at he
    have := h.facts.1
    omega
  constructor
  · rintro ⟨⟨h0, h1, h2⟩, h3⟩
    have := q.gl_nonneg h0
    have hx := (q.lt_nx h0 (s := (PC.at' .Row r).dist.nrTiles) (by omega)).2 (by omega)
    rw [hall] at hx
    exact ⟨⟨⟨h0, hx⟩, h3⟩, by omega, by omega⟩
  · rintro ⟨⟨⟨h0, _⟩, h3⟩, h1, h2⟩
    have := q.gl_nonneg h0
    exact ⟨⟨h0, by omega, by omega⟩, h3⟩

theorem hermDiag_step {r : Coord2} (hr : r ∈ PC.ranks) {dC : Coord2 → VP K} :
    VL (hermEnv PA PB PC) r (rrIdx l) (hermDiag dbg alpha beta (PC.on r) l)
      (GV.ofL (set1 m 2 c) rest [fun _ => hermA PA m l, fun _ => hermB PA PB m l, dC])
      (GV.ofL (set1 m 2 (hermC1 alpha (hermBeta beta l) (m 0) (m 1) l c)) rest [fun _ => hermA PA m l, fun _ => hermB PA PB m l, dC]) := by
  have hV := hermEnv_ok h.d
  obtain ⟨f1, f2, f3, f4, f5, f6⟩ := h.facts
  obtain ⟨qr, qc, qb, eB, eC, eC'⟩ := h.plains hr
  unfold hermDiag
  refine (VL.tasks hV hr (n := 2) _ _ (fun t => t.1 = l) (hermC1 alpha (hermBeta beta l) (m 0) (m 1) l c) (rowsTiles_nodup _ _ _) ?_ ?_).to ?_
  · intro z
    have := h.mem_rows (z := z) hr (s := l) (e := l + 1) h.l
    rw [show ((l + 1 : Nat) : Int) = (l : Int) + 1 by omega] at this
    refine this.trans (and_congr Iff.rfl ?_)
    omega
  · intro z hz hS x hx
    obtain ⟨i, j, i1, j1, e1, e2, e3, e4⟩ := h.tile hr hz
    rw [e1] at hS hx ⊢
    dsimp only at hS
    subst hS
    have z1 : 0 ≤ z.row := hz.1.1
    have z2 : 0 ≤ z.col := hz.2.1
    refine VF.rd hV hr (n := 0) (b := m 0 (i, i)) ?_ ?_ z1 ?_ ?_ ?_ ?_
    · exact Int.le_of_lt f4
    · show (0 : Int) ≤ (i : Int); omega
    · show (i : Int) ≤ (PA.at' .Row r).gl z.row; omega
    · show (PA.at' .Row r).gl z.row < PA.row.dist.nrTiles; omega
    · show some (m 0 (((PA.at' .Row r).gl z.row).toNat, i)) = _; rw [e2]; rfl
    dsimp only
    refine VF.rd hV hr (n := 1) (b := m 1 (i, j)) ?_ ?_ z2 ?_ ?_ ?_ ?_
    · exact Int.le_of_lt f4
    · exact le_refl _
    · show (0 : Int) ≤ (PB.at' .Col r).gl z.col; omega
    · show (PB.at' .Col r).gl z.col < PB.col.dist.nrTiles; unfold Params.ntn at j1; omega
    · show some (m 1 (i, ((PB.at' .Col r).gl z.col).toNat)) = _; rw [e3]; rfl
    have ht := VF.task (a := (GV.ofL (set1 m 2 c) rest [fun _ => hermA PA m i, fun _ => hermB PA PB m i, dC]).setM 2 x) (w := rrIdx i) hV hr (n := 2) (idx := z) hz
      (f := hemm .Left .Lower alpha (m 0 (i, i)) (m 1 (i, j)) (hermBeta beta i))
      (b := hermC1 alpha (hermBeta beta i) (m 0) (m 1) i c (i, j)) (by
        have ex : ((GV.ofL (set1 m 2 c) rest [fun _ => hermA PA m i, fun _ => hermB PA PB m i, dC]).setM 2 x).mat 2 ((hermEnv PA PB PC).g 2 r z) = c (i, j) := by
          rw [e1]
          exact hx
        rw [ex]
        have ha := h.a i h.l i h.l
        have hb := h.b i h.l j j1
        have hc := h.c i h.l j j1
        unfold hemm hermC1
        simp only
        rw [if_pos ⟨by rw [hc.1, ha.1], by rw [hc.2, hb.2], by rw [ha.2, hb.1]⟩]
        rfl)
    rw [e1] at ht
    exact ht
  · rw [GV.ofL_setM]
    refine GV.ofL_mat fun n z hz => ?_
    by_cases hn : n = 2
    · subst hn
      rw [set1_same, set1_same]
      show (if _ then _ else c _) = _
      split
      · rfl
      · rename_i hne
        unfold hermC1
        rw [if_neg hne]
    · rw [set1_ne _ _ hn, set1_ne _ _ hn]


theorem hermSet0_step {r : Coord2} (hr : r ∈ PC.ranks) {dA dB : Coord2 → VP K} {c : Tiles K} :
    VL (hermEnv PA PB PC) r (rrIdx l) (hermSet0 dbg (PC.on r) l)
      (GV.ofL (set1 m 2 c) rest [dA, dB, fun _ => emptyP (PA.row.dist.global_tile_size_of l) 0 PB.col.dist.nrTiles])
      (GV.ofL (set1 m 2 c) rest [dA, dB, fun _ => hermP alpha PA PB m l fun _ => ∅]) := by
  have hV := hermEnv_ok h.d
  obtain ⟨f1, f2, f3, f4, f5, f6⟩ := h.facts
  obtain ⟨qr, qc, qb, eB, eC, eC'⟩ := h.plains hr
  have q : Plain (PC.at' .Col r) := by rw [eC']; exact qb
  have hn : PC.col.dist.nrTiles = PB.col.dist.nrTiles := by rw [h.d.col]
  unfold hermSet0
  refine (VL.set0s hV hr (n := 2) (it := l) (dbg := dbg) _ (irange_nodup _ _) (s := 0) (e := PB.col.dist.nrTiles) rfl rfl ?_ (le_refl _)
    h.d.bCol.nrTiles_nonneg ?_ rfl ?_ rfl).to (GV.ofL_to (n := 2) (by simp) _ rfl ?_ rfl)
  · exact Int.le_of_lt f4
  · show _ ≤ PC.col.dist.nrTiles
    omega
  · intro i
    rw [mem_irange]
    show _ ↔ 0 ≤ i ∧ 0 ≤ (PC.at' .Col r).gl i ∧ (PC.at' .Col r).gl i < _
    rw [← q.mem_nx (le_refl _) h.d.bCol.nrTiles_nonneg, q.nx_zero, ← hn, show (PC.at' .Col r).nx PC.col.dist.nrTiles = _ from q.nx_all]
    exact Iff.rfl
  · show VP.loc _ (⟨_, _, _, _⟩ : VP K) = VP.loc _ (hermP alpha PA PB m l fun _ => ∅)
    unfold VP.loc hermP
    dsimp only
    congr 1
    funext i
    have hc : (hermEnv PA PB PC).E.crd 2 r = PC.at' .Col r := rfl
    rw [hc]
    by_cases hi : (PC.at' .Col r).nx 0 ≤ i ∧ i < (PC.at' .Col r).nx PB.col.dist.nrTiles
    · rw [if_pos hi, if_pos hi]
      rw [q.mem_nx (le_refl _) h.d.bCol.nrTiles_nonneg] at hi
      unfold hermW zeroTile
      rw [if_neg (show ¬ (hermEnv PA PB PC).E.tall 2 = true from Bool.false_ne_true)]
      simp only [Finset.sum_empty, mul_zero]
      congr 2
      show _ = ((PB.col.dist.global_tile_size_of _).toNat : Nat)
      rw [show ((((PC.at' .Col r).gl i).toNat : Nat) : Int) = (PC.at' .Col r).gl i by omega]
      show (PC.col.dist.global_tile_size_of _).toNat = _
      rw [h.d.col]
    · rw [if_neg hi, if_neg hi]

/-- The contributions of one more row. -/
theorem hermW_insert {i j : Nat} (hi : i < PA.row.ntn) (hj : j < PB.col.ntn) {S : Finset Nat} (hS : i ∉ S) :
    gemm .ConjTrans .NoTrans alpha (m 0 (i, l)) (m 1 (i, j)) 1 (hermW alpha (PA.row.tileSizes l) (PB.col.tileSizes j) (m 0) (m 1) l j S) =
      some (hermW alpha (PA.row.tileSizes l) (PB.col.tileSizes j) (m 0) (m 1) l j (insert i S)) := by
  have ha := h.a i hi l h.l
  have hb := h.b i hi j hj
  unfold gemm
  refine (if_pos ?_).trans ?_
  · exact ⟨ha.2, hb.2, ha.1.trans hb.1.symm⟩
  · unfold hermW
    congr 2
    funext r q
    dsimp only
    rw [Finset.sum_insert hS, one_mul, mul_add]
    rfl

theorem hermLower_step {r : Coord2} (hr : r ∈ PC.ranks) :
    VL (hermEnv PA PB PC) r (rrIdx l) (hermLower dbg alpha beta (PC.on r) l)
      (GV.ofL (set1 m 2 (hermC1 alpha (hermBeta beta l) (m 0) (m 1) l c)) rest [fun _ => hermA PA m l, fun _ => hermB PA PB m l, fun _ => hermP alpha PA PB m l fun _ => ∅])
      (GV.ofL (set1 m 2 fun z => if z.1 ≤ l then hermC1 alpha (hermBeta beta l) (m 0) (m 1) l c z else hermNext alpha (hermBeta beta l) PA.row.ntn (m 0) (m 1) l c z) rest
        [fun _ => hermA PA m l, fun _ => hermB PA PB m l, fun r => hermP alpha PA PB m l fun _ => hermOwn PA l r.row]) := by
  classical
  have hV := hermEnv_ok h.d
  obtain ⟨f1, f2, f3, f4, f5, f6⟩ := h.facts
  obtain ⟨qr, qc, qb, eB, eC, eC'⟩ := h.plains hr
  have hall : (PC.on r).row.localNrTiles = (PC.at' .Row r).nx (PA.row.ntn : Nat) := by
    have h1 : (PC.at' .Row r).nx (PC.at' .Row r).dist.nrTiles = (PC.at' .Row r).dist.localNrTiles := Tiled.nx_all (by rw [eC]; exact qr.toTiled)
    have h2 : ((PA.row.ntn : Nat) : Int) = (PC.at' .Row r).dist.nrTiles := by
      rw [eC]
      show _ = PA.row.dist.nrTiles
      unfold Params.ntn
      omega
    rw [h2, h1]
    rfl
  have hmem : ∀ z, z ∈ rowsTiles (PC.on r) ((PC.on r).row.next_local_tile_from_global_tile ((l : Int) + 1)) (PC.on r).row.localNrTiles ↔
      (hermEnv PA PB PC).In 2 r z ∧ l < ((hermEnv PA PB PC).g 2 r z).1 := by
    intro z
    rw [hall]
    have := h.mem_rows (z := z) hr (s := l + 1) (e := PA.row.ntn) (le_refl _)
    rw [show ((l + 1 : Nat) : Int) = (l : Int) + 1 by omega] at this
    refine this.trans ⟨fun hx => ⟨hx.1, by omega⟩, fun hx => ⟨hx.1, by omega, ?_⟩⟩
    obtain ⟨i, j, i1, j1, e1, -⟩ := h.tile hr hx.1
    rw [e1]
    exact i1
  have hnd := rowsTiles_nodup (PC.on r) ((PC.on r).row.next_local_tile_from_global_tile ((l : Int) + 1)) (PC.on r).row.localNrTiles
  unfold hermLower
  generalize rowsTiles (PC.on r) ((PC.on r).row.next_local_tile_from_global_tile ((l : Int) + 1)) (PC.on r).row.localNrTiles = zs at hmem hnd ⊢
  let Sof : List Coord2 → Int → Finset Nat := fun pre t => ((pre.filter fun z => (PB.at' .Col r).gl z.col = t).map fun z => ((PA.at' .Row r).gl z.row).toNat).toFinset
  let C1 := hermC1 alpha (hermBeta beta l) (m 0) (m 1) l c
  let C2 := hermNext alpha (hermBeta beta l) PA.row.ntn (m 0) (m 1) l c
  let Cof : List Coord2 → Tiles K := fun pre t => if t ∈ pre.map ((hermEnv PA PB PC).g 2 r) then C2 t else C1 t
  have key := VL.list (V := hermEnv PA PB PC) (r := r) (w := rrIdx l) zs (fun z =>
    [fun s => ((DSt.panel 0 l).read dbg z.row s).bind fun sa => ((DSt.panel 1 l).read dbg z.col sa.1).bind fun sb =>
        DSt.task 2 z (gemm .NoTrans .NoTrans alpha sa.2 sb.2 (hermBeta beta l)) sb.1,
     fun s => ((DSt.panel 0 l).read dbg z.row s).bind fun sa =>
        (fun y => (DSt.panel 2 l).upd fun v => v.modify dbg z.col (gemm .ConjTrans .NoTrans alpha sa.2 y 1)) (sa.1.mat 1 z) sa.1])
    (fun pre => GV.ofL (set1 m 2 (Cof pre)) rest [fun _ => hermA PA m l, fun _ => hermB PA PB m l, fun _ => hermP alpha PA PB m l (Sof pre)]) (by
    intro pre z post hx
    have hz : z ∈ zs := by rw [hx]; simp
    obtain ⟨hzi, hzl⟩ := (hmem z).1 hz
    obtain ⟨i, j, i1, j1, e1, e2, e3, e4⟩ := h.tile hr hzi
    rw [e1] at hzl
    dsimp only at hzl
    have z1 : 0 ≤ z.row := hzi.1.1
    have z2 : 0 ≤ z.col := hzi.2.1
    have hzpre : z ∉ pre := by
      intro hc
      rw [hx] at hnd
      exact (List.nodup_append.1 hnd).2.2 _ hc _ List.mem_cons_self rfl
    have hin : ∀ y ∈ pre, (hermEnv PA PB PC).In 2 r y := fun y hy => ((hmem y).1 (by rw [hx]; simp [hy])).1
    have hgpre : (i, j) ∉ pre.map ((hermEnv PA PB PC).g 2 r) := by
      intro hc
      obtain ⟨y, hy, hye⟩ := List.mem_map.1 hc
      have := hV.g_inj hr (hin y hy) hzi (hye.trans e1.symm)
      subst this
      exact hzpre hy
    have hSpre : i ∉ Sof pre j := by
      intro hc
      simp only [Sof, List.mem_toFinset, List.mem_map, List.mem_filter, decide_eq_true_eq] at hc
      obtain ⟨y, ⟨hy, hy1⟩, hy2⟩ := hc
      have hyi := hin y hy
      obtain ⟨i', j', -, -, u1, u2, u3, -⟩ := h.tile hr hyi
      refine hgpre (List.mem_map.2 ⟨y, hy, ?_⟩)
      rw [u1]
      congr 1 <;> omega
    have hC1 : C1 (i, j) = c (i, j) := by
      show hermC1 _ _ _ _ _ _ _ = _
      unfold hermC1
      rw [if_neg (by show ¬ i = l; omega)]
    have hC2 : C2 (i, j) = ⟨(c (i, j)).rows, (c (i, j)).cols, fun r q => alpha * ((m 0 (i, l)).mul (m 1 (l, j))).e r q + hermBeta beta l * (c (i, j)).e r q⟩ := by
      show hermNext _ _ _ _ _ _ _ _ = _
      unfold hermNext
      rw [if_neg (by show ¬ i < l; omega), if_neg (by show ¬ i = l; omega)]
    refine VL.cons (b := (GV.ofL (set1 m 2 (Cof pre)) rest [fun _ => hermA PA m l, fun _ => hermB PA PB m l, fun _ => hermP alpha PA PB m l (Sof pre)]).setT 2
      ((hermEnv PA PB PC).g 2 r z) (C2 (i, j))) ?_ (VF.one ?_)
    · refine VF.rd hV hr (n := 0) (b := m 0 (i, l)) ?_ ?_ z1 ?_ ?_ ?_ ?_
      · exact Int.le_of_lt f4
      · show (0 : Int) ≤ (l : Int); omega
      · show (l : Int) ≤ (PA.at' .Row r).gl z.row; omega
      · show (PA.at' .Row r).gl z.row < PA.row.dist.nrTiles; unfold Params.ntn at i1; omega
      · show some (m 0 (((PA.at' .Row r).gl z.row).toNat, l)) = _; rw [e2]; rfl
      dsimp only
      refine VF.rd hV hr (n := 1) (b := m 1 (l, j)) ?_ ?_ z2 ?_ ?_ ?_ ?_
      · exact Int.le_of_lt f4
      · exact le_refl _
      · show (0 : Int) ≤ (PB.at' .Col r).gl z.col; omega
      · show (PB.at' .Col r).gl z.col < PB.col.dist.nrTiles; unfold Params.ntn at j1; omega
      · show some (m 1 (l, ((PB.at' .Col r).gl z.col).toNat)) = _; rw [e3]; rfl
      dsimp only
      refine VF.task hV hr (n := 2) (idx := z) hzi ?_
      show gemm _ _ _ _ _ _ (Cof pre ((hermEnv PA PB PC).g 2 r z)) = _
      rw [e1, show Cof pre (i, j) = c (i, j) from (if_neg hgpre).trans hC1, hC2]
      have ha := h.a i i1 l h.l
      have hb := h.b l h.l j j1
      have hc := h.c i i1 j j1
      unfold gemm
      exact if_pos ⟨ha.1.trans hc.1.symm, hb.2.trans hc.2.symm, ha.2.trans hb.1.symm⟩
    · refine VF.rd hV hr (n := 0) (b := m 0 (i, l)) ?_ ?_ z1 ?_ ?_ ?_ ?_
      · exact Int.le_of_lt f4
      · show (0 : Int) ≤ (l : Int); omega
      · show (l : Int) ≤ (PA.at' .Row r).gl z.row; omega
      · show (PA.at' .Row r).gl z.row < PA.row.dist.nrTiles; unfold Params.ntn at i1; omega
      · show some (m 0 (((PA.at' .Row r).gl z.row).toNat, l)) = _; rw [e2]; rfl
      have hz1 : (hermEnv PA PB PC).In 1 r z := by
        obtain ⟨x1, x2⟩ := hzi
        have x1' : 0 ≤ z.row ∧ z.row < (PC.at' .Row r).dist.localNrTiles := x1
        have x2' : 0 ≤ z.col ∧ z.col < (PC.at' .Col r).dist.localNrTiles := x2
        rw [eC, ← eB] at x1'
        rw [eC'] at x2'
        exact ⟨x1', x2'⟩
      have hg1 : (hermEnv PA PB PC).g 1 r z = (i, j) := by
        rw [← e1]
        show (((PB.at' .Row r).gl z.row).toNat, ((PB.at' .Col r).gl z.col).toNat) = (((PC.at' .Row r).gl z.row).toNat, ((PC.at' .Col r).gl z.col).toNat)
        rw [eB, eC, eC']
      refine VF.readMat (n := 1) (idx := z) (k := fun y => (DSt.panel 2 l).upd fun v => v.modify dbg z.col (gemm .ConjTrans .NoTrans alpha (m 0 (i, l)) y 1)) hz1 ?_
      rw [hg1]
      have hcc : ((hermEnv PA PB PC).E.crd 2 r).gl z.col = j := by
        show (PC.at' .Col r).gl z.col = j
        rw [eC']; exact e3
      refine (VF.modify hV hr (n := 2) (dbg := dbg) (i := z.col) (b := hermW alpha (PA.row.tileSizes l) (PB.col.tileSizes j) (m 0) (m 1) l j (Sof pre j))
        (b' := hermW alpha (PA.row.tileSizes l) (PB.col.tileSizes j) (m 0) (m 1) l j (insert i (Sof pre j))) ?_ ?_ z2 ?_ ?_ ?_ ?_ ?_ rfl).to ?_
      · exact Int.le_of_lt f4
      · exact le_refl _
      · rw [hcc]; show (0 : Int) ≤ (j : Int); omega
      · rw [hcc]; show (j : Int) < PB.col.dist.nrTiles; unfold Params.ntn at j1; omega
      · rw [hcc]; rfl
      · exact hermW_insert h i1 j1 hSpre
      · rw [hcc]
        show VPanel.fits false _ (PA.row.dist.global_tile_size_of l) (PC.col.dist.global_tile_size_of j) = true
        unfold VPanel.fits
        have hp := h.d.bCol.size_pos (t := (j : Int)) (by omega) (by unfold Params.ntn at j1; omega)
        simp only [Bool.false_eq_true, if_false, Bool.and_eq_true, decide_eq_true_eq]
        rw [h.d.col]
        show (((PA.row.dist.global_tile_size_of l).toNat : Nat) : Int) = _ ∧ (((PB.col.dist.global_tile_size_of j).toNat : Nat) : Int) = _
        omega
      · rw [hcc]
        have hSn : ∀ t, Sof (pre ++ [z]) t = if t = (j : Int) then insert i (Sof pre j) else Sof pre t := by
          intro t
          simp only [Sof, List.filter_append, List.map_append, List.toFinset_append]
          by_cases ht : t = (j : Int)
          · subst ht
            rw [if_pos rfl]
            have : ([z].filter fun z => decide ((PB.at' .Col r).gl z.col = (j : Int))) = [z] := by
              rw [List.filter_singleton]
              simp [e3]
            rw [this]
            ext x
            simp only [List.map_cons, List.map_nil, List.toFinset_cons, List.toFinset_nil, Finset.mem_union, Finset.mem_insert, Finset.notMem_empty, or_false]
            rw [e2]
            have : ((i : Int).toNat : Nat) = i := by omega
            rw [this]
            exact or_comm
          · rw [if_neg ht]
            have : ([z].filter fun z => decide ((PB.at' .Col r).gl z.col = t)) = [] := by
              rw [List.filter_singleton]
              simp [e3, Ne.symm ht]
            rw [this]
            simp
        unfold GV.setW
        refine ⟨fun n y hy => ?_, fun n => ?_⟩
        · show set1 (set1 m 2 (Cof pre)) 2 (set1 (set1 m 2 (Cof pre) 2) ((hermEnv PA PB PC).g 2 r z) (C2 (i, j))) n _ = set1 m 2 (Cof (pre ++ [z])) n _
          rw [set1_set1, set1_same]
          by_cases hn : n = 2
          · subst hn
            rw [set1_same, set1_same]
            unfold set1
            by_cases hyz : (hermEnv PA PB PC).g 2 r y = (hermEnv PA PB PC).g 2 r z
            · rw [if_pos hyz, hyz, e1]
              exact (if_pos (by simp [e1])).symm
            · rw [if_neg hyz]
              refine if_congr ?_ rfl rfl
              simp [hyz]
          · rw [set1_ne _ _ hn, set1_ne _ _ hn]
        · refine (GV.ofL_to (V := hermEnv PA PB PC) (rest := rest) (n := 2) (L := [fun _ => hermA PA m l, fun _ => hermB PA PB m l, fun _ => hermP alpha PA PB m l (Sof pre)]) (m := m) (m' := m)
            (L' := [fun _ => hermA PA m l, fun _ => hermB PA PB m l, fun _ => hermP alpha PA PB m l (Sof (pre ++ [z]))]) (by simp) _ rfl ?_ rfl).pan n
          congr 1
          unfold hermP
          show (⟨_, _, _, set1 _ _ _⟩ : VP K) = _
          congr 1
          funext t
          unfold set1
          rw [hSn]
          by_cases ht : t = (j : Int)
          · rw [if_pos ht, if_pos ht, ht]; rfl
          · rw [if_neg ht, if_neg ht]; rfl)
  refine (key.frm ?_).to ?_
  · refine GV.ofL_mat fun n z hz => ?_
    show _ = set1 m 2 (Cof []) n _
    congr 2
  · refine ⟨fun n z hz => ?_, fun n => ?_⟩
    · show set1 m 2 (Cof zs) n _ = _
      show _ = set1 m 2 _ n _
      by_cases hn : n = 2
      · subst hn
        rw [set1_same, set1_same]
        show (if _ then _ else _) = _
        by_cases hl : ((hermEnv PA PB PC).g 2 r z).1 ≤ l
        · rw [if_pos hl, if_neg]
          rintro hc
          obtain ⟨y, hy, hye⟩ := List.mem_map.1 hc
          have := ((hmem y).1 hy).2
          rw [hye] at this
          omega
        · rw [if_neg hl, if_pos (List.mem_map.2 ⟨z, (hmem z).2 ⟨hz, by omega⟩, rfl⟩)]
      · rw [set1_ne _ _ hn, set1_ne _ _ hn]
    · rcases n with _ | _ | _ | n
      · rfl
      · rfl
      · show VP.loc _ (hermP alpha PA PB m l (Sof zs)) = VP.loc _ (hermP alpha PA PB m l fun _ => hermOwn PA l r.row)
        unfold VP.loc hermP
        dsimp only
        congr 1
        funext x
        refine ite_congr rfl (fun hx => ?_) fun _ => rfl
        have hx' : (PC.at' .Col r).nx 0 ≤ x ∧ x < (PC.at' .Col r).nx PB.col.dist.nrTiles := hx
        rw [eC', qb.mem_nx (le_refl _) h.d.bCol.nrTiles_nonneg] at hx'
        have hcc : ((hermEnv PA PB PC).E.crd 2 r).gl x = (PB.at' .Col r).gl x := by
          show (PC.at' .Col r).gl x = _
          rw [eC']
        rw [hcc]
        congr 2
        ext i
        simp only [Sof, hermOwn, List.mem_toFinset, List.mem_map, List.mem_filter, decide_eq_true_eq, Finset.mem_filter, Finset.mem_Ioo]
        constructor
        · rintro ⟨y, ⟨hy, hy1⟩, rfl⟩
          obtain ⟨y2, y3⟩ := (hmem y).1 hy
          obtain ⟨i', j', u0, -, u1, u2, u3, u4⟩ := h.tile hr y2
          rw [u1] at y3
          rw [u2]
          exact ⟨⟨y3, u0⟩, u4⟩
        · rintro ⟨⟨g1, g2⟩, g3⟩
          have gi : (i : Int) < PA.row.dist.nrTiles := by unfold Params.ntn at g2; omega
          have lb := qr.lc_bounds (t := (i : Int)) (by omega) gi g3
          have lg : (PA.at' .Row r).gl ((PA.at' .Row r).lc i) = i := qr.gl_lc (by omega) g3
          have hxl : x < (PB.at' .Col r).dist.localNrTiles := by
            rw [← qb.nx_all]
            exact (qb.lt_nx hx'.1 h.d.bCol.nrTiles_nonneg).2 hx'.2.2
          have hI : (hermEnv PA PB PC).In 2 r ⟨(PA.at' .Row r).lc i, x⟩ := by
            show (_ ∧ _ < (PC.at' .Row r).dist.localNrTiles) ∧ _ ∧ _ < (PC.at' .Col r).dist.localNrTiles
            rw [eC, eC']
            exact ⟨lb, hx'.1, hxl⟩
          refine ⟨⟨(PA.at' .Row r).lc i, x⟩, ⟨(hmem _).2 ⟨hI, ?_⟩, rfl⟩, by rw [lg]; omega⟩
          show l < ((PC.at' .Row r).gl ((PA.at' .Row r).lc i)).toNat
          rw [eC, lg]
          omega
      · rfl


theorem hermAdd_step {r : Coord2} (hr : r ∈ PC.ranks) :
    VL (hermEnv PA PB PC) r (rrIdx l) (hermAdd dbg (PC.on r) l)
      (GV.ofL (set1 m 2 fun z => if z.1 ≤ l then hermC1 alpha (hermBeta beta l) (m 0) (m 1) l c z else hermNext alpha (hermBeta beta l) PA.row.ntn (m 0) (m 1) l c z) rest
        [fun _ => hermA PA m l, fun _ => hermB PA PB m l, fun r => hermP alpha PA PB m l fun _ =>
          if r.row = PA.row.dist.rank_global_tile l then Finset.Ioo l PA.row.ntn else hermOwn PA l r.row])
      (GV.ofL (set1 m 2 (hermNext alpha (hermBeta beta l) PA.row.ntn (m 0) (m 1) l c)) rest
        [fun _ => hermA PA m l, fun _ => hermB PA PB m l, fun r => hermP alpha PA PB m l fun _ =>
          if r.row = PA.row.dist.rank_global_tile l then Finset.Ioo l PA.row.ntn else hermOwn PA l r.row]) := by
  have hV := hermEnv_ok h.d
  obtain ⟨f1, f2, f3, f4, f5, f6⟩ := h.facts
  obtain ⟨qr, qc, qb, eB, eC, eC'⟩ := h.plains hr
  unfold hermAdd
  refine (VL.tasks hV hr (n := 2) _ _ (fun t => t.1 = l) (hermNext alpha (hermBeta beta l) PA.row.ntn (m 0) (m 1) l c) (rowsTiles_nodup _ _ _) ?_ ?_).to ?_
  · intro z
    have := h.mem_rows (z := z) hr (s := l) (e := l + 1) h.l
    rw [show ((l + 1 : Nat) : Int) = (l : Int) + 1 by omega] at this
    refine this.trans (and_congr Iff.rfl ?_)
    omega
  · intro z hz hS x hx
    obtain ⟨i, j, i1, j1, e1, e2, e3, e4⟩ := h.tile hr hz
    rw [e1] at hS hx
    dsimp only at hS
    subst hS
    have z2 : 0 ≤ z.col := hz.2.1
    have hcc : ((hermEnv PA PB PC).E.crd 2 r).gl z.col = j := by
      show (PC.at' .Col r).gl z.col = j
      rw [eC']; exact e3
    refine VF.rd hV hr (n := 2) (b := hermW alpha (PA.row.tileSizes i) (PB.col.tileSizes j) (m 0) (m 1) i j (Finset.Ioo i PA.row.ntn)) ?_ ?_ z2 ?_ ?_ ?_ ?_
    · exact Int.le_of_lt f4
    · exact le_refl _
    · rw [hcc]; show (0 : Int) ≤ (j : Int); omega
    · rw [hcc]; show (j : Int) < PB.col.dist.nrTiles; unfold Params.ntn at j1; omega
    · rw [hcc]
      show some (hermW _ _ _ _ _ _ _ (if r.row = PA.row.dist.rank_global_tile i then _ else _)) = _
      rw [if_pos e4.symm]
      rfl
    dsimp only
    refine VF.task hV hr (n := 2) (idx := z) hz ?_
    rw [e1]
    have ex : ∀ (L : List (Coord2 → VP K)) (y : Nat → Tiles K), ((GV.ofL y rest L).setM 2 x).mat 2 (i, j) = x (i, j) := fun L y => by
      unfold GV.setM
      dsimp only
      rw [set1_same]
    rw [ex, hx]
    show blkAdd _ _ (if i ≤ i then hermC1 _ _ _ _ _ _ _ else _) = some (hermNext _ _ _ _ _ _ _ _)
    rw [if_pos (le_refl _)]
    have hc := h.c i i1 j j1
    unfold blkAdd hermC1 hermNext hermW
    simp only [lt_irrefl, if_false, if_true]
    rw [if_pos ⟨hc.1.symm, hc.2.symm⟩]
    congr 2
    funext r q
    rw [one_mul]
  · rw [GV.ofL_setM]
    refine GV.ofL_mat fun n z hz => ?_
    by_cases hn : n = 2
    · subst hn
      rw [set1_same, set1_same]
      show (if _ then _ else (if _ then _ else _)) = _
      split
      · rfl
      · rename_i hne
        split
        · unfold hermC1 hermNext
          rw [if_neg hne, if_pos (by omega)]
        · rfl
    · rw [set1_ne _ _ hn, set1_ne _ _ hn]

theorem hermBelow_step :
    VStep (hermEnv PA PB PC) (rrIdx l) (fun r => hermBelow dbg alpha beta (PA.on r) (PC.on r) l)
      (GV.ofL (set1 m 2 (hermC1 alpha (hermBeta beta l) (m 0) (m 1) l c)) rest [fun _ => hermA PA m l, fun _ => hermB PA PB m l,
        fun _ => emptyP (PA.row.dist.global_tile_size_of l) 0 PB.col.dist.nrTiles])
      (GV.ofL (set1 m 2 (hermNext alpha (hermBeta beta l) PA.row.ntn (m 0) (m 1) l c)) rest
        [fun _ => hermA PA m l, fun _ => hermB PA PB m l, fun r => hermP alpha PA PB m l fun _ =>
          if r.row = PA.row.dist.rank_global_tile l then Finset.Ioo l PA.row.ntn else hermOwn PA l r.row]) := by
  have hV := hermEnv_ok h.d
  obtain ⟨f1, f2, f3, f4, f5, f6⟩ := h.facts
  refine VStep.append (VStep.append (VStep.append (VStep.locals hV fun r hr => hermSet0_step h hr (alpha := alpha)) (VStep.locals hV fun r hr => hermLower_step h hr)) ?_)
    (VStep.locals hV fun r hr => hermAdd_step h hr)
  have hro := h.d.aRow.valid.wf.cyc.rank_range (t := (l : Int)) (by omega)
  have hred := VStep.reduce hV (a := GV.ofL (set1 m 2 fun z => if z.1 ≤ l then hermC1 alpha (hermBeta beta l) (m 0) (m 1) l c z else hermNext alpha (hermBeta beta l) PA.row.ntn (m 0) (m 1) l c z) rest
        [fun _ => hermA PA m l, fun _ => hermB PA PB m l, fun r => hermP alpha PA PB m l fun _ => hermOwn PA l r.row])
      (it := l) 2 rfl (root := PA.row.dist.rank_global_tile l) (by
      show _ ∧ _ < PC.row.grid
      rw [h.d.rowC]
      exact hro) (dbg := dbg) (ax := PA.row.dist.global_tile_size_of l) (s := 0) (e := PB.col.dist.nrTiles) (Int.le_of_lt f4) (le_refl _) h.d.bCol.nrTiles_nonneg
      (fun q t => hermW alpha (PA.row.tileSizes l) (PB.col.tileSizes t.toNat) (m 0) (m 1) l t.toNat (hermOwn PA l q))
      (fun t => hermW alpha (PA.row.tileSizes l) (PB.col.tileSizes t.toNat) (m 0) (m 1) l t.toNat (Finset.Ioo l PA.row.ntn)) (by
        intro t _ _
        show sumBlk ((irange 0 PC.row.grid).map _) = _
        rw [h.d.rowC]
        unfold hermW
        have hg : 0 < PA.row.grid := h.d.aRow.valid.wf.grid_pos
        have hs := sum_owners h.d.aRow (Finset.Ioo l PA.row.ntn) (K := K)
        rw [irange_cons hg] at hs ⊢
        rw [sumBlk_exact]
        congr 2
        funext r q
        rw [← hs]
        unfold hermOwn
        rw [← List.sum_map_mul_left]) (by
        intro t h0 h1
        show VPanel.fits false _ (PA.row.dist.global_tile_size_of l) (PC.col.dist.global_tile_size_of t) = true
        unfold VPanel.fits
        have hp := h.d.bCol.size_pos (t := t) h0 h1
        simp only [Bool.false_eq_true, if_false, Bool.and_eq_true, decide_eq_true_eq]
        rw [h.d.col]
        show (((PA.row.dist.global_tile_size_of l).toNat : Nat) : Int) = _ ∧ (((PB.col.dist.global_tile_size_of ((t.toNat : Nat) : Int)).toNat : Nat) : Int) = _
        rw [show ((t.toNat : Nat) : Int) = t by omega]
        omega) (fun r hr => rfl)
  refine VStep.toL (n := 2) (by simp) (hred.congr fun r hr => ?_) ?_
  · show reducePanel dbg .Row (PC.on r) _ _ 0 PC.col.dist.nrTiles = reducePanel dbg .Row (PC.on r) _ _ 0 PB.col.dist.nrTiles
    rw [h.d.col]
    rfl
  · show _ = [_, _, _]
    congr 3
    funext r
    unfold hermP
    congr 1
    funext t
    show _ = some (if r.row = _ then _ else _)
    split <;> rfl

/-- One iteration. -/
theorem herm_step {g : Glob (DSt K) (Blk K)} (hg : VIdle (hermEnv PA PB PC) (set1 m 2 c) g) :
    ∃ g', Runs (fun r => if r ∈ PC.ranks then hermStep dbg alpha beta (PA.on r) (PB.on r) (PC.on r) l else []) g g' ∧
      VIdle (hermEnv PA PB PC) (set1 m 2 (hermNext alpha (hermBeta beta l) PA.row.ntn (m 0) (m 1) l c)) g' := by
  have hV := hermEnv_ok h.d
  obtain ⟨f1, f2, f3, f4, f5, f6⟩ := h.facts
  refine VStep.iter (w := rrIdx l) (p := fun r => hermStep dbg alpha beta (PA.on r) (PB.on r) (PC.on r) l) (fun ss se hss => ?_) hg
  let rest : Coord2 → Nat → VP K := fun r n => ⟨(hermEnv PA PB PC).E.tile n, ss r n, se r n, fun _ => none⟩
  let z := PA.row.dist.global_tile_size_of l
  let nB := PB.col.dist.nrTiles
  have hroA := h.d.aCol.valid.wf.cyc.rank_range (t := (l : Int)) (by omega)
  have hroB := h.d.aRow.valid.wf.cyc.rank_range (t := (l : Int)) (by omega)
  let cn := hermNext alpha (hermBeta beta l) PA.row.ntn (m 0) (m 1) l c
  let c1 := hermC1 alpha (hermBeta beta l) (m 0) (m 1) l c
  -- the last panel of C
  let dC : Coord2 → VP K := fun r => if l + 1 < PA.row.ntn then hermP alpha PA PB m l fun _ =>
          if r.row = PA.row.dist.rank_global_tile l then Finset.Ioo l PA.row.ntn else hermOwn PA l r.row else emptyP z 0 nB
  have G1 : VStep (hermEnv PA PB PC) (rrIdx l) (fun r => (hermPrepA dbg (PA.on r) l).map Instr.loc) ⟨set1 m 2 c, rest⟩
      (GV.ofL (set1 m 2 c) rest [fun r => if r.col = PA.col.dist.rank_global_tile l then hermA PA m l else emptyP z l PA.row.dist.nrTiles,
        fun _ => emptyP z 0 nB, fun _ => emptyP z 0 nB]) := by
    refine VStep.locals hV fun r hr => ?_
    refine (hermPrepA_step (dbg := dbg) h (ss := fun r => ss r 0) (fun r hr => (hss r hr 0).1) hr).frm ⟨fun _ _ _ => rfl, fun n => ?_⟩
    obtain ⟨s0, s1, s2⟩ := hss r hr n
    rcases n with _ | _ | _ | n
    · show VP.loc _ (⟨_, ss r 0, se r 0, _⟩ : VP K) = _
      rw [s2 rfl]
      rfl
    · show VP.loc _ (⟨_, ss r 1, se r 1, _⟩ : VP K) = _
      rw [s1 rfl, s2 rfl]
      rfl
    · show VP.loc _ (⟨_, ss r 2, se r 2, _⟩ : VP K) = _
      rw [s1 rfl, s2 rfl]
      show _ = VP.loc _ (emptyP PA.row.tile 0 PB.col.dist.nrTiles)
      rw [← h.d.col]
      rfl
    · rfl
  have G2 : VStep (hermEnv PA PB PC) (rrIdx l) (fun r => bcastPanel dbg .Col (PA.on r) (PA.col.dist.rank_global_tile l) (DSt.panel 0 l) l PA.row.dist.nrTiles)
      (GV.ofL (set1 m 2 c) rest [fun r => if r.col = PA.col.dist.rank_global_tile l then hermA PA m l else emptyP z l PA.row.dist.nrTiles,
        fun _ => emptyP z 0 nB, fun _ => emptyP z 0 nB])
      (GV.ofL (set1 m 2 c) rest [fun _ => hermA PA m l, fun _ => emptyP z 0 nB, fun _ => emptyP z 0 nB]) := by
    refine VStep.toL (n := 0) (by simp) (VStep.bcastAll hV 0 (root := PA.col.dist.rank_global_tile l) hroA (dbg := dbg) (it := l) (ax := z) (s := l) (e := PA.row.dist.nrTiles)
      (Int.le_of_lt f4) (by omega) (by omega) (le_refl _) (fun t => m 0 (t.toNat, l)) (hermA_fits h) (fun r hr => ?_) rfl) rfl
    show (if r.col = _ then _ else _) = (⟨_, _, _, if r.col = _ then _ else _⟩ : VP K)
    split <;> rfl
  have G3 : VStep (hermEnv PA PB PC) (rrIdx l) (fun r => (hermPrepB dbg (PA.on r) (PB.on r) (PC.on r) l).map Instr.loc)
      (GV.ofL (set1 m 2 c) rest [fun _ => hermA PA m l, fun _ => emptyP z 0 nB, fun _ => emptyP z 0 nB])
      (GV.ofL (set1 m 2 c) rest [fun _ => hermA PA m l, fun r => if r.row = PA.row.dist.rank_global_tile l then hermB PA PB m l else emptyP z 0 nB,
        fun _ => emptyP z 0 nB]) :=
    VStep.locals hV fun r hr => hermPrepB_step h hr
  have G4 : VStep (hermEnv PA PB PC) (rrIdx l) (fun r => bcastPanel dbg .Row (PB.on r) (PA.row.dist.rank_global_tile l) (DSt.panel 1 l) 0 nB)
      (GV.ofL (set1 m 2 c) rest [fun _ => hermA PA m l, fun r => if r.row = PA.row.dist.rank_global_tile l then hermB PA PB m l else emptyP z 0 nB,
        fun _ => emptyP z 0 nB])
      (GV.ofL (set1 m 2 c) rest [fun _ => hermA PA m l, fun _ => hermB PA PB m l, fun _ => emptyP z 0 nB]) := by
    refine VStep.toL (n := 1) (by simp) (VStep.bcastAll hV 1 (root := PA.row.dist.rank_global_tile l) ?_ (dbg := dbg) (it := l) (ax := z) (s := 0) (e := nB)
      (Int.le_of_lt f4) (le_refl _) h.d.bCol.nrTiles_nonneg (le_refl _) (fun t => m 1 (l, t.toNat)) (hermB_fits h) (fun r hr => ?_) rfl) rfl
    · show _ ∧ _ < PB.row.grid
      rw [h.d.rowB]
      exact hroB
    · show (if r.row = _ then _ else _) = (⟨_, _, _, if r.row = _ then _ else _⟩ : VP K)
      split <;> rfl
  have G5 : VStep (hermEnv PA PB PC) (rrIdx l) (fun r => (hermDiag dbg alpha beta (PC.on r) l).map Instr.loc)
      (GV.ofL (set1 m 2 c) rest [fun _ => hermA PA m l, fun _ => hermB PA PB m l, fun _ => emptyP z 0 nB])
      (GV.ofL (set1 m 2 c1) rest [fun _ => hermA PA m l, fun _ => hermB PA PB m l, fun _ => emptyP z 0 nB]) :=
    VStep.locals hV fun r hr => hermDiag_step h hr
  have G6 : VStep (hermEnv PA PB PC) (rrIdx l) (fun r => if (l : Int) < (PA.on r).col.nrTiles - 1 then hermBelow dbg alpha beta (PA.on r) (PC.on r) l else [])
      (GV.ofL (set1 m 2 c1) rest [fun _ => hermA PA m l, fun _ => hermB PA PB m l, fun _ => emptyP z 0 nB])
      (GV.ofL (set1 m 2 cn) rest [fun _ => hermA PA m l, fun _ => hermB PA PB m l, dC]) := by
    show VStep _ _ (fun r => if (l : Int) < PA.col.dist.nrTiles - 1 then _ else _) _ _
    refine VStep.ite (fun hc => ?_) fun hc => ?_
    · have hlast : l + 1 < PA.row.ntn := by unfold Params.ntn; omega
      have e : dC = fun r => hermP alpha PA PB m l fun _ => if r.row = PA.row.dist.rank_global_tile l then Finset.Ioo l PA.row.ntn else hermOwn PA l r.row :=
        funext fun r => if_pos hlast
      rw [e]
      exact hermBelow_step h
    · have hlast : ¬ l + 1 < PA.row.ntn := by unfold Params.ntn; omega
      have e : dC = fun _ => emptyP z 0 nB := funext fun r => if_neg hlast
      rw [e]
      refine (VStep.nil _).to fun r hr => GV.ofL_mat fun n y hy => ?_
      by_cases hn : n = 2
      · subst hn
        rw [set1_same, set1_same]
        obtain ⟨i, j, i1, j1, e1, -⟩ := h.tile hr hy
        rw [e1]
        show hermC1 _ _ _ _ _ _ _ = hermNext _ _ _ _ _ _ _ _
        unfold hermC1 hermNext
        dsimp only
        by_cases hi : i = l
        · rw [if_pos hi, if_neg (by omega), if_pos hi]
          have : Finset.Ioo l PA.row.ntn = ∅ := by
            ext x
            simp only [Finset.mem_Ioo, Finset.notMem_empty, iff_false]
            omega
          rw [this]
          simp
        · rw [if_neg hi, if_pos (by omega)]
      · rw [set1_ne _ _ hn, set1_ne _ _ hn]
  have G7 : VStep (hermEnv PA PB PC) (rrIdx l) (fun r => List.map Instr.loc [fun s => (DSt.panel 0 (l : Int)).upd (fun v => some v.reset) s,
        fun s => (DSt.panel 1 (l : Int)).upd (fun v => some v.reset) s, fun s => (DSt.panel 2 (l : Int)).upd (fun v => some v.reset) s])
      (GV.ofL (set1 m 2 cn) rest [fun _ => hermA PA m l, fun _ => hermB PA PB m l, dC])
      (GV.ofL (set1 m 2 cn) rest [fun _ => emptyP PA.col.tile l PA.row.dist.nrTiles, fun _ => emptyP PA.row.tile 0 nB, fun _ => emptyP PA.row.tile 0 nB]) := by
    refine VStep.locals hV fun r hr => ?_
    refine VL.cons (b := GV.ofL (set1 m 2 cn) rest [fun _ => emptyP PA.col.tile l PA.row.dist.nrTiles, fun _ => hermB PA PB m l, dC]) ?_
      (VL.cons (b := GV.ofL (set1 m 2 cn) rest [fun _ => emptyP PA.col.tile l PA.row.dist.nrTiles, fun _ => emptyP PA.row.tile 0 nB, dC]) ?_ (VF.one ?_))
    · exact (VF.reset (n := 0) (it := l)).to (GV.ofL_to (n := 0) (by simp) _ rfl rfl rfl)
    · exact (VF.reset (n := 1) (it := l)).to (GV.ofL_to (n := 1) (by simp) _ rfl rfl rfl)
    · refine (VF.reset (n := 2) (it := l)).to (GV.ofL_to (n := 2) (by simp) _ rfl ?_ rfl)
      have e : ∀ r, (dC r).s = 0 ∧ (dC r).e = nB := fun r => by
        show (VP.s (if _ then _ else _)) = 0 ∧ (VP.e (if _ then _ else _)) = nB
        split <;> exact ⟨rfl, rfl⟩
      show VP.loc _ (⟨_, (dC r).s, (dC r).e, _⟩ : VP K) = _
      rw [(e r).1, (e r).2]
      rfl
  refine ⟨_, ((((((G1.append G2).append G3).append G4).append G5).append G6).append G7).congr fun r _ => rfl, rfl, fun r hr n => ?_⟩
  obtain ⟨s0, s1, s2⟩ := hss r hr n
  rcases n with _ | _ | _ | n
  · exact ⟨rfl, rfl, by show (0 : Int) ≤ (l : Int); omega, fun hc => absurd hc (by show ¬ true = false; decide), fun _ => rfl⟩
  · exact ⟨rfl, rfl, le_refl _, fun _ => rfl, fun _ => rfl⟩
  · refine ⟨rfl, rfl, le_refl _, fun _ => rfl, fun _ => ?_⟩
    show PB.col.dist.nrTiles = PC.col.dist.nrTiles
    rw [h.d.col]
  · exact ⟨rfl, rfl, s0, s1, s2⟩

end steps

end
end DLAF
