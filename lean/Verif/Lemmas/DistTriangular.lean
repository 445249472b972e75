import Verif.Model.DistTriangular
import Verif.Spec.DistTri
import Verif.Lemmas.DistMultiplication
/- The distributed triangular multiplication and solver (NoTrans): one iteration. -/
namespace DLAF
variable {K : Type*}

/-- A panel with uninitialized tiles. -/
theorem PanelIs.fillWith {p : Params} {tall : Bool} {tile ax s e : Int} {f : Int → Option (Blk K)} {v : VPanel K}
    (h : PanelIs p tall tile ax s e f v) (hp : Tiled p) (hax : 0 ≤ ax) (junk : Nat → Nat → Nat → K) :
    PanelIs p tall tile ax s e (fun i => if 0 ≤ i ∧ i < p.dist.localNrTiles then some ((f i).getD (junkBlk tall ax (tsz p i) (junk i.toNat))) else none)
      (v.fill junk) := by
  have hsz := h.tileSize_eq
  let J : Int → Blk K := fun i => junkBlk tall ax (tsz p i) (junk i.toNat)
  have hJ : ∀ i, 0 ≤ i → i < p.dist.localNrTiles → VPanel.fits tall (J i) ax (tsz p i) = true :=
    fun i h0 h1 => junkBlk_fits _ hax (tsz_nonneg hp h0 h1)
  have hm : ∀ i : Int, 0 ≤ i → (v.fill junk).mem i.toNat = some ((v.mem i.toNat).getD (J i)) := by
    intro i hi
    unfold VPanel.fill
    dsimp only
    rw [h.bias, show (((i.toNat : Nat) : Int) + 0) = i by omega, hsz, h.tallEq]
    rfl
  have hcl : ∀ i, f i = none → 0 ≤ i → i < p.dist.localNrTiles → v.p.external[i.toNat]?.join = none :=
    fun i h1 h2 h3 => (h.empty i h2 h3 h1).1
  refine ⟨h.dist, h.axis, h.tallEq, h.data, h.bias, h.len, h.dim, h.off, h.start, h.stop, h.startLocal, h.stopLocal, h.rng, ?_, ?_, ?_, ?_⟩
  · intro hu
    obtain ⟨i, hi⟩ := h.used hu
    obtain ⟨h1, h2⟩ := h.supp i hi
    exact ⟨i, by simp [h1, h2]⟩
  · intro i hi
    by_contra hc
    rw [if_neg hc] at hi
    exact hi rfl
  · intro i h0 h1 hi
    rw [if_pos ⟨h0, h1⟩] at hi
    cases hi
  · intro i b h0 h1 hi
    rw [if_pos ⟨h0, h1⟩, Option.some.injEq] at hi
    subst hi
    cases hf : f i with
    | none =>
      have := h.empty i h0 h1 hf
      simp only [Option.getD_none]
      refine ⟨hJ i h0 h1, Or.inr ⟨this.1, ?_⟩⟩
      rw [hm i h0, this.2.2]
      rfl
    | some b =>
      simp only [Option.getD_some]
      obtain ⟨q1, q2⟩ := h.full i b h0 h1 hf
      refine ⟨q1, q2.imp id fun q => ⟨q.1, ?_⟩⟩
      rw [hm i h0, q.2]
      rfl

theorem LStep.fill {E : DEnv} {r : Coord2} {a : Abs K} (hE : E.OK) (hr : r ∈ E.G) {it : Int} {n : Nat} (hax : 0 ≤ (a.cur n).ax)
    (junk : Nat → Nat → Nat → K) :
    LStep E r (rrIdx it) [(DSt.panel n it).upd fun v => some (v.fill junk)] a (a.setPan n ⟨(a.cur n).ax, (a.cur n).s, (a.cur n).e,
      fun i => if 0 ≤ i ∧ i < (E.crd n r).dist.localNrTiles then
        some (((a.cur n).f i).getD (junkBlk (E.tall n) (a.cur n).ax (tsz (E.crd n r) i) (junk i.toNat))) else none⟩) :=
  .upd (fun _ hv => ⟨_, rfl, hv.fillWith (hE.crd n hr) hax junk⟩) fun _ _ h e => by cases e; exact h.fill

theorem mem_dirRange {up : Bool} {a b i : Int} : i ∈ dirRange up a b ↔ a ≤ i ∧ i < b := by
  unfold dirRange
  cases up <;> simp [mem_irange]

theorem dirRange_nodup (up : Bool) (a b : Int) : (dirRange up a b).Nodup := by
  unfold dirRange
  cases up
  · exact List.nodup_reverse.2 (irange_nodup a b)
  · exact irange_nodup a b

theorem tileAt_get (axis : Coord) (i j : Int) : (tileAt axis i j).get axis = j ∧ (tileAt axis i j).get axis.orth = i := by
  cases axis <;> exact ⟨rfl, rfl⟩

namespace TriAlg
variable (t : TriAlg K) (PA PB : Params2)

/-- The panels. -/
def env : DEnv where
  G := PB.ranks
  pd := fun n => if n = 0 then PA else PB
  axis := fun n => if n = 0 then t.axis else t.axis.orth
  tall := fun n => if n = 0 then isTall t.axis else isTall t.axis.orth
  tile := fun n => if n = 0 then (PA.get t.axis).tile else (PB.get t.axis.orth).tile
  freeS := fun n => decide (n = 0) && t.lower
  freeE := fun _ => false
  own := fun n => decide (n = 1) && t.accum

variable {t PA PB}

theorem _root_.DLAF.TriDist.plainA {c : Coord} (h : TriDist c PA PB) (q : Coord) : Plain (PA.get q) := by
  cases q; exact h.a.row; exact h.a.col

theorem _root_.DLAF.TriDist.plainB {c : Coord} (h : TriDist c PA PB) (q : Coord) : Plain (PB.get q) := by
  cases q; exact h.bRow; exact h.bCol

theorem _root_.DLAF.TriDist.ranksA {c : Coord} (h : TriDist c PA PB) : PA.ranks = PB.ranks := ranks_congr h.gridRow.symm h.gridCol.symm

theorem _root_.DLAF.TriDist.size_eq {c : Coord} (h : TriDist c PA PB) (q q' : Coord) (i : Int) :
    (PA.get q).dist.global_tile_size_of i = (PA.get q').dist.global_tile_size_of i := by
  have := h.a.row.tile_size_eq h.a.col h.a.size h.a.tile i
  cases q <;> cases q' <;> first | rfl | exact this | exact this.symm

theorem _root_.DLAF.TriDist.nr_eq {c : Coord} (h : TriDist c PA PB) (q q' : Coord) : (PA.get q).dist.nrTiles = (PA.get q').dist.nrTiles := by
  have := h.a.row.nrTiles_eq h.a.col h.a.size h.a.tile
  cases q <;> cases q' <;> first | rfl | exact this | exact this.symm

theorem _root_.DLAF.TriDist.tile_eq {c : Coord} (h : TriDist c PA PB) (q q' : Coord) : (PA.get q).tile = (PA.get q').tile := by
  have := h.a.tile
  cases q <;> cases q' <;> first | rfl | exact this | exact this.symm

theorem env_ok (h : TriDist t.axis.orth PA PB) : (t.env PA PB).OK := by
  refine ⟨fun n c => ?_, fun n => ?_, fun n => ?_, fun _ n c => ?_⟩
  rotate_right
  · unfold env
    dsimp only
    split
    · exact h.plainA c
    · exact h.plainB c
  · unfold env
    dsimp only
    split
    · exact (h.plainA c).toTiled
    · exact (h.plainB c).toTiled
  · unfold env
    dsimp only
    split
    · exact h.ranksA
    · rfl
  · unfold env
    dsimp only
    have := (h.plainA t.axis).tile_pos
    have := (h.plainB t.axis.orth).tile_pos
    split <;> omega

/-- The number of the iteration, of all processes. -/
def iterG (t : TriAlg K) (PA : Params2) (k : Int) : Int := if t.up then k else (PA.get t.axis).dist.nrTiles - 1 - k

theorem iter_on (r : Coord2) (k : Int) : t.iter (PA.on r) k = t.iterG PA k := by
  unfold iter iterG
  rw [Params2.on_get]
  rfl

/-- Start of the range of the panel of A. -/
def start (t : TriAlg K) (k : Int) : Int := if t.lower then k else 0

/-- The tiles of the panel of A: those of line `k`, and uninitialized ones. -/
def wA (t : TriAlg K) (PA : Params2) (junk : Coord2 → Int → Nat → Nat → Nat → K) (a : Tiles K) (k : Nat) (i : Int) : Blk K :=
  if t.lower = true ∨ i ≤ k then a (i.toNat, k) else
    let q := tileAt t.axis ((PA.get t.axis.orth).dist.rank_global_tile i) ((PA.get t.axis).dist.rank_global_tile k)
    junkBlk (isTall t.axis) ((PA.get t.axis).dist.global_tile_size_of k) ((PA.get t.axis.orth).dist.global_tile_size_of i)
      (junk q k ((PA.at' t.axis.orth q).lc i).toNat)

theorem wA_fits (h : TriDist t.axis.orth PA PB) {junk : Coord2 → Int → Nat → Nat → Nat → K} {a : Tiles K} {k : Nat}
    (hk : k < (PA.get t.axis).ntn)
    (hfa : ∀ i < (PA.get t.axis).ntn, (if t.lower then k ≤ i else i ≤ k) → VPanel.fits (isTall t.axis) (a (i, k))
      ((PA.get t.axis).dist.global_tile_size_of k) ((PA.get t.axis.orth).dist.global_tile_size_of i) = true)
    {i : Int} (h0 : t.start k ≤ i) (h1 : i < (PA.get t.axis.orth).dist.nrTiles) :
    VPanel.fits (isTall t.axis) (t.wA PA junk a k i) ((PA.get t.axis).dist.global_tile_size_of k) ((PA.get t.axis.orth).dist.global_tile_size_of i) = true := by
  have hi0 : 0 ≤ i := by unfold start at h0; split at h0 <;> omega
  have hn := h.nr_eq t.axis.orth t.axis
  have hpos := (h.plainA t.axis.orth).size_pos hi0 h1
  have hkpos := (h.plainA t.axis).size_pos (t := (k : Int)) (by omega) (by unfold Params.ntn at hk; omega)
  unfold wA
  split
  · rename_i hc
    have := hfa i.toNat (by unfold Params.ntn; omega) (by
      unfold start at h0
      cases hl : t.lower
      · rw [hl] at hc
        simp only [Bool.false_eq_true, if_false, false_or] at hc ⊢
        omega
      · rw [hl] at h0
        simp only [if_true] at h0 ⊢
        omega)
    rwa [show ((i.toNat : Nat) : Int) = i by omega] at this
  · exact junkBlk_fits _ (by omega) (by omega)

theorem prep_step (h : TriDist t.axis.orth PA PB) {dbg : Bool} {junk : Coord2 → Int → Nat → Nat → Nat → K} {a : Tiles K} {k : Nat}
    (hk : k < (PA.get t.axis).ntn)
    (hfa : ∀ i < (PA.get t.axis).ntn, (if t.lower then k ≤ i else i ≤ k) → VPanel.fits (isTall t.axis) (a (i, k))
      ((PA.get t.axis).dist.global_tile_size_of k) ((PA.get t.axis.orth).dist.global_tile_size_of i) = true)
    {r : Coord2} (hr : r ∈ PB.ranks) {m : Nat → Coord2 → Blk K} (hv : LView PA t.axis r a (m 0)) {rest : Nat → PanD K} {s : Int}
    (hs : 0 ≤ s) (hs' : t.lower = false → s = 0) :
    LStep (t.env PA PB) r (rrIdx (t.iterG PA k)) (t.prep dbg (junk r) (PA.on r) k)
      (Abs.of m rest [⟨(PA.get t.axis).tile, s, (PA.get t.axis.orth).dist.nrTiles, fun _ => none⟩,
        ⟨(PB.get t.axis.orth).tile, 0, (PB.get t.axis).dist.nrTiles, fun _ => none⟩])
      (Abs.of m rest [⟨(PA.get t.axis).dist.global_tile_size_of k, t.start k, (PA.get t.axis.orth).dist.nrTiles,
          if r.get t.axis = (PA.get t.axis).dist.rank_global_tile k then
            content (PA.at' t.axis.orth r) (t.start k) (PA.get t.axis.orth).dist.nrTiles (t.wA PA junk a k) else fun _ => none⟩,
        ⟨(PA.get t.axis).dist.global_tile_size_of k, 0, (PB.get t.axis).dist.nrTiles, fun _ => none⟩]) := by
  have hE := env_ok h
  have hrA : r ∈ PA.ranks := h.ranksA ▸ hr
  have hn := h.nr_eq t.axis.orth t.axis
  have hkA : (k : Int) < (PA.get t.axis).dist.nrTiles := by unfold Params.ntn at hk; omega
  have hkpos := (h.plainA t.axis).size_pos (t := (k : Int)) (by omega) hkA
  have hkle := (h.plainA t.axis).size_le (t := (k : Int)) (by omega) hkA
  have hko := h.size_eq t.axis.orth t.axis k
  have htile : (PB.get t.axis.orth).tile = (PA.get t.axis).tile := by rw [h.lines]; exact h.tile_eq _ _
  have hpo : Plain (PA.at' t.axis.orth r) := Params2.plain (h.plainA _) hrA
  have hpa : Plain (PA.at' t.axis r) := Params2.plain (h.plainA _) hrA
  -- range
  have h1 : LStep (t.env PA PB) r (rrIdx (t.iterG PA k)) (if t.lower then [(DSt.panel 0 (t.iterG PA k)).upd fun v => v.setRangeStart dbg k] else [])
      (Abs.of m rest [⟨(PA.get t.axis).tile, s, (PA.get t.axis.orth).dist.nrTiles, fun _ => none⟩,
        ⟨(PB.get t.axis.orth).tile, 0, (PB.get t.axis).dist.nrTiles, fun _ => none⟩])
      (Abs.of m rest [⟨(PA.get t.axis).tile, t.start k, (PA.get t.axis.orth).dist.nrTiles, fun _ => none⟩,
        ⟨(PB.get t.axis.orth).tile, 0, (PB.get t.axis).dist.nrTiles, fun _ => none⟩]) := by
    refine .ite (fun hl => ?_) (fun hl => ?_)
    · refine (LStep.setRangeStart hE hr (n := 0) (by omega) ?_ rfl).to ?_
      · show (k : Int) ≤ (PA.get t.axis.orth).dist.nrTiles
        omega
      · unfold start
        rw [if_pos hl]
        exact Abs.of2_0 _ _ _ _ _
    · refine (LStep.nil _).to ?_
      unfold start
      rw [if_neg hl, hs' (by simpa using hl)]
  -- extent
  have h2 : LStep (t.env PA PB) r (rrIdx (t.iterG PA k)) (if (k : Int) = (PA.get t.axis).dist.nrTiles - 1 then
        [(DSt.panel 0 (t.iterG PA k)).upd fun v => v.setDim dbg ((PA.get t.axis.orth).dist.global_tile_size_of k),
         (DSt.panel 1 (t.iterG PA k)).upd fun v => v.setDim dbg ((PA.get t.axis).dist.global_tile_size_of k)] else [])
      (Abs.of m rest [⟨(PA.get t.axis).tile, t.start k, (PA.get t.axis.orth).dist.nrTiles, fun _ => none⟩,
        ⟨(PB.get t.axis.orth).tile, 0, (PB.get t.axis).dist.nrTiles, fun _ => none⟩])
      (Abs.of m rest [⟨(PA.get t.axis).dist.global_tile_size_of k, t.start k, (PA.get t.axis.orth).dist.nrTiles, fun _ => none⟩,
        ⟨(PA.get t.axis).dist.global_tile_size_of k, 0, (PB.get t.axis).dist.nrTiles, fun _ => none⟩]) := by
    refine .ite (fun _ => ?_) (fun hc => ?_)
    · refine LStep.cons (b := Abs.of m rest [⟨(PA.get t.axis).dist.global_tile_size_of k, t.start k, (PA.get t.axis.orth).dist.nrTiles, fun _ => none⟩,
        ⟨(PB.get t.axis.orth).tile, 0, (PB.get t.axis).dist.nrTiles, fun _ => none⟩]) ?_ ?_
      · rw [hko]
        exact (LStep.setDim (n := 0) hkpos hkle.1 rfl).to (Abs.of2_0 _ _ _ _ _)
      · refine (LStep.setDim (n := 1) hkpos ?_ rfl).to (Abs.of2_1 _ _ _ _ _)
        show _ ≤ (PB.get t.axis.orth).tile
        rw [htile]
        exact hkle.1
    · refine (LStep.nil _).to ?_
      rw [hkle.2 (by omega), htile]
  -- links
  let nA := (PA.get t.axis.orth).dist.nrTiles
  let kz := (PA.get t.axis).dist.global_tile_size_of k
  let e1 : Int := if t.lower then nA else k + 1
  have h3 : LStep (t.env PA PB) r (rrIdx (t.iterG PA k)) (if (PA.get t.axis).dist.rank_global_tile k = r.get t.axis then
      (if t.lower then irange ((PA.at' t.axis.orth r).nx k) (PA.at' t.axis.orth r).dist.localNrTiles
        else (irange 0 ((PA.at' t.axis.orth r).nx (k + 1))).reverse).map fun i =>
          DSt.link (DSt.panel 0 (t.iterG PA k)) dbg i 0 (tileAt t.axis i ((PA.at' t.axis r).nx k)) else [])
      (Abs.of m rest [⟨kz, t.start k, nA, fun _ => none⟩, ⟨kz, 0, (PB.get t.axis).dist.nrTiles, fun _ => none⟩])
      (Abs.of m rest [⟨kz, t.start k, nA, if r.get t.axis = (PA.get t.axis).dist.rank_global_tile k then
            content (PA.at' t.axis.orth r) (t.start k) e1 (fun i => a (i.toNat, k)) else fun _ => none⟩,
        ⟨kz, 0, (PB.get t.axis).dist.nrTiles, fun _ => none⟩]) := by
    have hse : 0 ≤ t.start k ∧ t.start k ≤ e1 ∧ e1 ≤ nA := by
      have q1 : e1 = if t.lower then nA else (k : Int) + 1 := rfl
      have q2 : nA = (PA.get t.axis.orth).dist.nrTiles := rfl
      have q3 : t.start k = if t.lower then (k : Int) else 0 := rfl
      rw [q1, q3]
      cases t.lower
      · simp only [Bool.false_eq_true, if_false]; omega
      · simp only [if_true]; omega
    have hfit : ∀ i, t.start k ≤ i → i < e1 → VPanel.fits (isTall t.axis) (a (i.toNat, k)) kz ((PA.get t.axis.orth).dist.global_tile_size_of i) = true := by
      intro i i0 i1
      have i0' : 0 ≤ i := by omega
      have hl : i < nA := by omega
      have := hfa i.toNat (by unfold Params.ntn; have : nA = (PA.get t.axis.orth).dist.nrTiles := rfl; omega) (by
        have i1' : i < (if t.lower then nA else (k : Int) + 1) := i1
        unfold start at i0
        split at i0 <;> rename_i hc
        · rw [if_pos hc]; omega
        · rw [if_neg hc] at i1' ⊢; omega)
      rwa [show ((i.toNat : Nat) : Int) = i by omega] at this
    have hlink := LStep.linkLine (E := t.env PA PB) (r := r) (dbg := dbg) (it := t.iterG PA k)
      (a := Abs.of m rest [⟨kz, t.start k, nA, fun _ => none⟩, ⟨kz, 0, (PB.get t.axis).dist.nrTiles, fun _ => none⟩])
      hE hr (n := 0) (q := 0) (m := a) (k := k) (s := t.start k) (e := e1)
      (if t.lower then irange ((PA.at' t.axis.orth r).nx k) (PA.at' t.axis.orth r).dist.localNrTiles
        else (irange 0 ((PA.at' t.axis.orth r).nx (k + 1))).reverse) hv hkA hse.1 (le_refl _) hse.2.1 hse.2.2 (le_refl _)
      (by split
          · exact irange_nodup _ _
          · exact List.nodup_reverse.2 (irange_nodup _ _))
      (by
        intro i
        show _ ↔ (PA.at' t.axis.orth r).nx (t.start k) ≤ i ∧ i < (PA.at' t.axis.orth r).nx (if t.lower then nA else (k : Int) + 1)
        unfold start
        split
        · rw [mem_irange, show (PA.at' t.axis.orth r).nx nA = (PA.at' t.axis.orth r).dist.localNrTiles from hpo.nx_all]
        · rw [List.mem_reverse, mem_irange, hpo.nx_zero])
      rfl hfit (own := (PA.get t.axis).dist.rank_global_tile k = r.get t.axis) eq_comm
    have hprog : (if (PA.get t.axis).dist.rank_global_tile k = r.get t.axis then
      (if t.lower then irange ((PA.at' t.axis.orth r).nx k) (PA.at' t.axis.orth r).dist.localNrTiles
        else (irange 0 ((PA.at' t.axis.orth r).nx (k + 1))).reverse).map fun i =>
          DSt.link (K := K) (DSt.panel 0 (t.iterG PA k)) dbg i 0 (tileAt t.axis i ((PA.at' t.axis r).nx k)) else []) =
      (if (PA.get t.axis).dist.rank_global_tile k = r.get t.axis then
      (if t.lower then irange ((PA.at' t.axis.orth r).nx k) (PA.at' t.axis.orth r).dist.localNrTiles
        else (irange 0 ((PA.at' t.axis.orth r).nx (k + 1))).reverse).map fun i =>
          DSt.link (K := K) (DSt.panel 0 (t.iterG PA k)) dbg i 0 (tileAt t.axis i ((PA.at' t.axis r).lc k)) else []) := by
      by_cases ho : (PA.get t.axis).dist.rank_global_tile k = r.get t.axis
      · rw [if_pos ho, if_pos ho, hpa.lc_nx (t := (k : Int)) (Int.natCast_nonneg k) ho]
      · rw [if_neg ho, if_neg ho]
    rw [hprog]
    exact hlink.to (Abs.of2_0 _ _ _ _ _)
  -- uninitialized tiles
  have h4 : LStep (t.env PA PB) r (rrIdx (t.iterG PA k)) (if (PA.get t.axis).dist.rank_global_tile k = r.get t.axis ∧ t.lower = false then
      [(DSt.panel 0 (t.iterG PA k)).upd fun v => some (v.fill (junk r k))] else [])
      (Abs.of m rest [⟨kz, t.start k, nA, if r.get t.axis = (PA.get t.axis).dist.rank_global_tile k then
            content (PA.at' t.axis.orth r) (t.start k) e1 (fun i => a (i.toNat, k)) else fun _ => none⟩,
        ⟨kz, 0, (PB.get t.axis).dist.nrTiles, fun _ => none⟩])
      (Abs.of m rest [⟨kz, t.start k, nA, if r.get t.axis = (PA.get t.axis).dist.rank_global_tile k then
            content (PA.at' t.axis.orth r) (t.start k) nA (t.wA PA junk a k) else fun _ => none⟩,
        ⟨kz, 0, (PB.get t.axis).dist.nrTiles, fun _ => none⟩]) := by
    refine .ite (fun hc => ?_) (fun hc => ?_)
    · refine (LStep.fill (n := 0) hE hr (Int.le_of_lt hkpos) (junk r k)).to ?_
      refine Eq.trans ?_ (Abs.of2_0 _ _ _ _ _)
      have hl := hc.2
      rw [if_pos hc.1.symm]
      show Abs.of m rest [_, _] = Abs.of m rest [⟨kz, t.start k, nA, _⟩, _]
      congr 2
      show _ = (⟨kz, t.start k, nA, fun i => if 0 ≤ i ∧ i < (PA.at' t.axis.orth r).dist.localNrTiles then
        some (((if r.get t.axis = (PA.get t.axis).dist.rank_global_tile k then content (PA.at' t.axis.orth r) (t.start k) e1 (fun i => a (i.toNat, k))
          else fun _ => none) i).getD (junkBlk (isTall t.axis) kz (tsz (PA.at' t.axis.orth r) i) (junk r k i.toNat))) else none⟩ : PanD K)
      congr 1
      funext i
      rw [if_pos hc.1.symm]
      have hst : t.start k = 0 := by unfold start; rw [hl]; rfl
      have he1 : e1 = (k : Int) + 1 := by show (if t.lower then nA else (k : Int) + 1) = _; rw [hl]; rfl
      rw [hst, he1]
      unfold content
      rw [show (PA.at' t.axis.orth r).dist.next_local_tile_from_global_tile 0 = 0 from hpo.nx_zero,
        show (PA.at' t.axis.orth r).dist.next_local_tile_from_global_tile nA = (PA.at' t.axis.orth r).dist.localNrTiles from hpo.nx_all]
      by_cases hi : 0 ≤ i ∧ i < (PA.at' t.axis.orth r).dist.localNrTiles
      · rw [if_pos hi, if_pos hi]
        congr 1
        have hlt := hpo.lt_nx (i := i) (s := (k : Int) + 1) hi.1 (by omega)
        by_cases hg : (PA.at' t.axis.orth r).gl i < (k : Int) + 1
        · rw [if_pos ⟨hi.1, hlt.2 hg⟩]
          unfold wA
          rw [if_pos (Or.inr (by show (PA.at' t.axis.orth r).gl i ≤ k; omega))]
          rfl
        · rw [if_neg (fun hq => hg (hlt.1 hq.2))]
          unfold wA
          rw [if_neg (by rw [hl]; simp only [Bool.false_eq_true, false_or]; show ¬ (PA.at' t.axis.orth r).gl i ≤ k; omega)]
          have hq : tileAt t.axis ((PA.get t.axis.orth).dist.rank_global_tile ((PA.at' t.axis.orth r).gl i)) ((PA.get t.axis).dist.rank_global_tile k) = r := by
            have g := tileAt_get t.axis ((PA.get t.axis.orth).dist.rank_global_tile ((PA.at' t.axis.orth r).gl i)) ((PA.get t.axis).dist.rank_global_tile k)
            refine coord_ext t.axis ?_ ?_
            · rw [g.1]; exact hc.1
            · rw [g.2]; exact hpo.gl_own hi.1
          dsimp only
          rw [show (PA.at' t.axis.orth r).dist.global_tile_from_local_tile i = (PA.at' t.axis.orth r).gl i from rfl, hq, hpo.lc_gl hi.1]
          rfl
      · rw [if_neg hi, if_neg hi]
    · refine (LStep.nil _).to ?_
      by_cases ho : r.get t.axis = (PA.get t.axis).dist.rank_global_tile k
      · rw [if_pos ho, if_pos ho]
        have hl : t.lower = true := by
          by_contra hq
          exact hc ⟨ho.symm, by simpa using hq⟩
        have he1 : e1 = nA := by show (if t.lower then nA else (k : Int) + 1) = _; rw [hl]; rfl
        rw [he1]
        have : t.wA PA junk a k = fun i => a (i.toNat, k) := by
          funext i
          unfold wA
          rw [if_pos (Or.inl hl)]
        rw [this]
      · rw [if_neg ho, if_neg ho]
  have := ((h1.append h2).append h3).append h4
  convert this using 1
  unfold prep
  simp only [iter_on, Params2.on_get]
  rfl

/-- The tile of `b` that local tile `z` of process `r` is. -/
def newB (t : TriAlg K) (PB : Params2) (b : Tiles K) (r z : Coord2) : Blk K :=
  b (((PB.at' t.axis.orth r).gl (z.get t.axis.orth)).toNat, ((PB.at' t.axis r).gl (z.get t.axis)).toNat)

theorem newB_at (b : Tiles K) (r : Coord2) (i j : Int) :
    t.newB PB b r (tileAt t.axis i j) = b (((PB.at' t.axis.orth r).gl i).toNat, ((PB.at' t.axis r).gl j).toNat) := by
  unfold newB
  rw [(tileAt_get t.axis i j).1, (tileAt_get t.axis i j).2]

theorem crd1 (r : Coord2) : (t.env PA PB).crd 1 r = PB.at' t.axis r := by
  show PB.at' t.axis.orth.orth r = _
  rw [orth_orth]

/-- The local indices of line `k` of B. -/
def diagPos (t : TriAlg K) (PB : Params2) (r : Coord2) (k : Nat) (xs : List Int) : List Coord2 :=
  xs.map fun j => tileAt t.axis ((PB.at' t.axis.orth r).lc k) j

theorem diag_step (h : TriDist t.axis.orth PA PB) (hacc : t.accum = false) {dbg : Bool} {k : Nat} (hk : k < (PA.get t.axis).ntn) {a b b' : Tiles K} {P : Nat → Blk K}
    {W : Int → Blk K} (hW : W k = a (k, k))
    (hfb : ∀ j < (PB.get t.axis).ntn, VPanel.fits (isTall t.axis.orth) (P j) ((PA.get t.axis).dist.global_tile_size_of k)
      ((PB.get t.axis).dist.global_tile_size_of j) = true)
    (hP : ∀ j < (PB.get t.axis).ntn, P j = if t.linkFirst then b (k, j) else b' (k, j))
    (hd : ∀ j < (PB.get t.axis).ntn, t.diag (a (k, k)) (b (k, j)) = some (b' (k, j)))
    {r : Coord2} (hr : r ∈ PB.ranks) {m : Nat → Coord2 → Blk K} (hv : LView PB t.axis r b (m 1)) {rest : Nat → PanD K} :
    LStep (t.env PA PB) r (rrIdx (t.iterG PA k)) ((dirRange t.jUp 0 ((PB.on r).get t.axis).localNrTiles).flatMap fun j => t.diagTile dbg (PA.on r) (PB.on r) k j)
      (Abs.of m rest [⟨(PA.get t.axis).dist.global_tile_size_of k, t.start k, (PA.get t.axis.orth).dist.nrTiles,
          content (PA.at' t.axis.orth r) (t.start k) (PA.get t.axis.orth).dist.nrTiles W⟩,
        ⟨(PA.get t.axis).dist.global_tile_size_of k, 0, (PB.get t.axis).dist.nrTiles, fun _ => none⟩])
      (Abs.of (set1 m 1 fun z => if r.get t.axis.orth = (PA.get t.axis.orth).dist.rank_global_tile k ∧
            z ∈ t.diagPos PB r k (dirRange t.jUp 0 (PB.at' t.axis r).dist.localNrTiles) then t.newB PB b' r z else m 1 z) rest
        [⟨(PA.get t.axis).dist.global_tile_size_of k, t.start k, (PA.get t.axis.orth).dist.nrTiles,
          content (PA.at' t.axis.orth r) (t.start k) (PA.get t.axis.orth).dist.nrTiles W⟩,
        ⟨(PA.get t.axis).dist.global_tile_size_of k, 0, (PB.get t.axis).dist.nrTiles,
          if r.get t.axis.orth = (PA.get t.axis.orth).dist.rank_global_tile k then
            content (PB.at' t.axis r) 0 (PB.get t.axis).dist.nrTiles (fun j => P j.toNat) else fun _ => none⟩]) := by
  have hE := env_ok h
  have hrA : r ∈ PA.ranks := h.ranksA ▸ hr
  have hn := h.nr_eq t.axis.orth t.axis
  have hkA : (k : Int) < (PA.get t.axis).dist.nrTiles := by unfold Params.ntn at hk; omega
  have hkpos := (h.plainA t.axis).size_pos (t := (k : Int)) (by omega) hkA
  have hpo : Plain (PA.at' t.axis.orth r) := Params2.plain (h.plainA _) hrA
  have hpb : Plain (PB.at' t.axis r) := Params2.plain (h.plainB _) hr
  have hab : PB.at' t.axis.orth r = PA.at' t.axis.orth r := by
    show (PB.get t.axis.orth).onRank _ = (PA.get t.axis.orth).onRank _
    rw [h.lines]
  rw [Params2.on_get]
  show LStep _ _ _ ((dirRange t.jUp 0 (PB.at' t.axis r).dist.localNrTiles).flatMap _) _ _
  let xs := dirRange t.jUp 0 (PB.at' t.axis r).dist.localNrTiles
  let kz := (PA.get t.axis).dist.global_tile_size_of k
  let nA := (PA.get t.axis.orth).dist.nrTiles
  let nB := (PB.get t.axis).dist.nrTiles
  have hst : 0 ≤ t.start k ∧ t.start k ≤ k := by unfold start; split <;> omega
  by_cases ho : r.get t.axis.orth = (PA.get t.axis.orth).dist.rank_global_tile k
  · have ho' : (PA.at' t.axis.orth r).dist.rank_global_tile k = (PA.at' t.axis.orth r).rank := ho.symm
    let kl := (PA.at' t.axis.orth r).lc k
    have hkl := hpo.lc_bounds (t := (k : Int)) (by omega) (show (k : Int) < (PA.get t.axis.orth).dist.nrTiles by omega) ho'
    have hgk : (PA.at' t.axis.orth r).gl kl = k := hpo.gl_lc (by omega) ho'
    let fA := content (PA.at' t.axis.orth r) (t.start k) nA W
    let S : List Int → Abs K := fun pre => Abs.of (set1 m 1 fun z => if z ∈ t.diagPos PB r k pre then t.newB PB b' r z else m 1 z) rest
      [⟨kz, t.start k, nA, fA⟩, ⟨kz, 0, nB, fun j => if j ∈ pre then some (P ((PB.at' t.axis r).gl j).toNat) else none⟩]
    have key := LStep.list (E := t.env PA PB) (r := r) (w := rrIdx (t.iterG PA k)) xs (fun j => t.diagTile dbg (PA.on r) (PB.on r) k j) S (by
      intro pre j post e
      have hjm : j ∈ xs := by rw [e]; simp
      have hj := mem_dirRange.1 hjm
      have hpre : j ∉ pre := by
        intro hc
        have hnd := dirRange_nodup t.jUp 0 (PB.at' t.axis r).dist.localNrTiles
        rw [show dirRange t.jUp 0 (PB.at' t.axis r).dist.localNrTiles = xs from rfl, e] at hnd
        exact (List.nodup_append.1 hnd).2.2 j hc j List.mem_cons_self rfl
      have hgj : 0 ≤ (PB.at' t.axis r).gl j := hpb.gl_nonneg hj.1
      have hgj' : (PB.at' t.axis r).gl j < nB := hpb.gl_lt hj.1 hj.2
      have hjn : ((PB.at' t.axis r).gl j).toNat < (PB.get t.axis).ntn := by
        show _ < (PB.get t.axis).dist.nrTiles.toNat
        have : nB = (PB.get t.axis).dist.nrTiles := rfl
        omega
      let z := tileAt t.axis kl j
      have hz : z ∉ t.diagPos PB r k pre := by
        unfold diagPos
        rw [List.mem_map]
        rintro ⟨q, hq, he⟩
        rw [hab] at he
        exact hpre ((tileAt_inj he).2 ▸ hq)
      have hold : (set1 m 1 fun z => if z ∈ t.diagPos PB r k pre then t.newB PB b' r z else m 1 z) 1 z = b (k, ((PB.at' t.axis r).gl j).toNat) := by
        rw [set1_same, if_neg hz]
        have := hv kl j hkl.1 (by rw [hab]; exact hkl.2) hj.1 hj.2
        rw [hab, hgk] at this
        exact this
      have hnew : t.newB PB b' r z = b' (k, ((PB.at' t.axis r).gl j).toNat) := by
        rw [newB_at, hab, hgk]
        rfl
      -- the panel of A
      have hca := hpo.content_at (i := kl) (s := t.start k) (e := nA) W hkl.1 hst.1 (hpo.nrTiles_nonneg) (by rw [hgk]; exact hst.2)
        (by rw [hgk]; show (k : Int) < (PA.get t.axis.orth).dist.nrTiles; omega)
      rw [hgk, hW] at hca
      -- the task
      have htask : ∀ (f : Int → Option (Blk K)), LStep (t.env PA PB) r (rrIdx (t.iterG PA k))
          [fun s => ((DSt.panel 0 (t.iterG PA k)).read dbg kl s).bind fun sa => DSt.task 1 z (t.diag sa.2) sa.1]
          (Abs.of (set1 m 1 fun z => if z ∈ t.diagPos PB r k pre then t.newB PB b' r z else m 1 z) rest [⟨kz, t.start k, nA, fA⟩, ⟨kz, 0, nB, f⟩])
          (Abs.of (set1 m 1 fun z => if z ∈ t.diagPos PB r k (pre ++ [j]) then t.newB PB b' r z else m 1 z) rest
            [⟨kz, t.start k, nA, fA⟩, ⟨kz, 0, nB, f⟩]) := by
        intro f
        refine .one fun x hx => ?_
        obtain ⟨x1, e1, h1⟩ := hx.read hE hr (it := t.iterG PA k) (n := 0) (dbg := dbg) (i := kl) (Int.le_of_lt hkpos) hst.1 hca.2 hca.1
        obtain ⟨x2, e2, h2⟩ := h1.task (n := 1) (idx := z) (f := t.diag (a (k, k))) (v := b' (k, ((PB.at' t.axis r).gl j).toNat)) (by
          show t.diag _ ((set1 m 1 fun z => if z ∈ t.diagPos PB r k pre then t.newB PB b' r z else m 1 z) 1 z) = _
          rw [hold]
          exact hd _ hjn)
        refine ⟨x2, by rw [e1, Option.bind_some]; exact e2, ?_⟩
        convert h2 using 1
        unfold Abs.of Abs.setMat
        dsimp only
        rw [set1_set1, set1_same]
        congr 2
        funext y
        by_cases hy : y = z
        · subst hy
          rw [set1_same, ← hnew, if_pos (by unfold diagPos; rw [hab]; simp [z, kl])]
        · rw [set1_ne _ _ hy]
          refine if_congr ?_ rfl rfl
          unfold diagPos
          rw [List.map_append, List.mem_append, hab]
          constructor
          · rintro (hq | hq)
            · exact hq
            · exact absurd (List.mem_singleton.1 hq) hy
          · exact Or.inl
      have hlink : ∀ (M1 : Coord2 → Blk K), M1 z = P ((PB.at' t.axis r).gl j).toNat → LStep (t.env PA PB) r (rrIdx (t.iterG PA k))
          [DSt.link (DSt.panel 1 (t.iterG PA k)) dbg j 1 z]
          (Abs.of (set1 m 1 M1) rest [⟨kz, t.start k, nA, fA⟩, ⟨kz, 0, nB, fun j => if j ∈ pre then some (P ((PB.at' t.axis r).gl j).toNat) else none⟩])
          (Abs.of (set1 m 1 M1) rest [⟨kz, t.start k, nA, fA⟩,
            ⟨kz, 0, nB, fun q => if q ∈ pre ++ [j] then some (P ((PB.at' t.axis r).gl q).toNat) else none⟩]) := by
        intro M1 hM1
        have hmat : (set1 m 1 M1) 1 z = P ((PB.at' t.axis r).gl j).toNat := by rw [set1_same]; exact hM1
        refine (LStep.link hE hr (n := 1) (q := 1) (dbg := dbg) (i := j) (idx := z) (le_refl _) ?_ ?_ ?_
          (show (decide (1 = 1) && t.accum) = false by rw [hacc]; rfl)).to ?_
        · rw [crd1]
          exact (hpb.content_at (i := j) (s := 0) (e := nB) W hj.1 (le_refl _) hpb.nrTiles_nonneg hgj hgj').2
        · show (if j ∈ pre then _ else none) = none
          rw [if_neg hpre]
        · show VPanel.fits (isTall t.axis.orth) ((set1 m 1 M1) 1 z) kz (tsz ((t.env PA PB).crd 1 r) j) = true
          rw [crd1, hmat]
          have := hfb _ hjn
          rw [show ((((PB.at' t.axis r).gl j).toNat : Nat) : Int) = (PB.at' t.axis r).gl j by omega] at this
          exact this
        · refine Eq.trans ?_ (Abs.of2_1 _ _ _ _ _)
          show _ = Abs.of _ rest [_, ⟨kz, 0, nB, set1 (fun j => if j ∈ pre then some (P ((PB.at' t.axis r).gl j).toNat) else none) j (some ((set1 m 1 M1) 1 z))⟩]
          rw [hmat]
          congr 3
          congr 1
          funext q
          by_cases hq : q = j
          · subst hq; rw [set1_same, if_pos (by simp)]
          · rw [set1_ne _ _ hq]
            exact if_congr (by simp [hq]) rfl rfl
      unfold diagTile
      simp only [iter_on, Params2.on_get]
      rw [if_pos (show (PA.at' t.axis.orth r).dist.rank_global_tile k = (PA.at' t.axis.orth r).dist.rank from ho')]
      rw [show ((PB.get t.axis.orth).onRank (r.get t.axis.orth)).dist.local_tile_from_global_tile k = kl by
        show (PB.at' t.axis.orth r).lc k = _; rw [hab]]
      by_cases hlf : t.linkFirst = true
      · rw [if_pos hlf]
        refine LStep.cons (hlink _ ?_) (htask _)
        rw [hP _ hjn, if_pos hlf]
        rw [set1_same] at hold
        exact hold
      · rw [if_neg hlf]
        refine LStep.cons (htask _) (hlink _ ?_)
        rw [hP _ hjn, if_neg hlf, ← hnew, if_pos]
        unfold diagPos
        rw [hab]
        simp [z, kl])
    refine LStep.to ?_ ?_ (b := S xs)
    · convert key using 1
      show _ = Abs.of _ rest [⟨kz, t.start k, nA, fA⟩, ⟨kz, 0, nB, fun j => if j ∈ [] then some (P ((PB.at' t.axis r).gl j).toNat) else none⟩]
      simp only [List.not_mem_nil, if_false]
      congr 1
      unfold diagPos
      simp only [List.map_nil, List.not_mem_nil, if_false]
      exact (set1_self m 1).symm
    · show Abs.of _ rest _ = Abs.of _ rest _
      congr 1
      · congr 1
        funext z
        exact if_congr ⟨fun hh => hh.2, fun hh => ⟨ho, hh⟩⟩ rfl rfl
      · rw [if_pos ho]
        congr 2
        rw [← hpb.links_content (s := 0) (e := (PB.get t.axis).dist.nrTiles) xs (fun j => P ((PB.at' t.axis r).gl j).toNat) (fun j => P j.toNat)
          (by
            intro i
            rw [hpb.nx_zero, show (PB.at' t.axis r).nx (PB.get t.axis).dist.nrTiles = (PB.at' t.axis r).dist.localNrTiles from hpb.nx_all]
            exact mem_dirRange) (fun i _ => rfl) (le_refl _)]
  · have hnil : ((dirRange t.jUp 0 (PB.at' t.axis r).dist.localNrTiles).flatMap fun j => t.diagTile dbg (PA.on r) (PB.on r) k j) = [] := by
      refine List.flatMap_eq_nil_iff.2 fun j _ => ?_
      unfold diagTile
      simp only [Params2.on_get]
      rw [if_neg]
      exact fun hc => ho hc.symm
    rw [hnil, if_neg ho]
    refine (LStep.nil _).to ?_
    congr 1
    have : (fun z => if r.get t.axis.orth = (PA.get t.axis.orth).dist.rank_global_tile k ∧
            z ∈ t.diagPos PB r k (dirRange t.jUp 0 (PB.at' t.axis r).dist.localNrTiles) then t.newB PB b' r z else m 1 z) = m 1 := by
      funext z
      rw [if_neg (fun hc => ho hc.1)]
    rw [this, set1_self]

/-- The local indices of the trailing matrix. -/
def trailPos (t : TriAlg K) (PA PB : Params2) (r : Coord2) (k : Nat) : List Coord2 :=
  (t.trailing (PA.on r) (PB.on r) k).flatMap fun i => (dirRange t.jUp 0 (PB.at' t.axis r).dist.localNrTiles).map fun j => tileAt t.axis i j

theorem trailing_nodup (da db : Distribution) (k : Int) : (t.trailing da db k).Nodup := by
  unfold trailing
  split
  · exact irange_nodup _ _
  · exact List.nodup_reverse.2 (irange_nodup _ _)

theorem mem_trailing (h : TriDist t.axis.orth PA PB) {r : Coord2} (hr : r ∈ PB.ranks) {k : Nat} (hk : k < (PA.get t.axis).ntn) {i : Int} :
    i ∈ t.trailing (PA.on r) (PB.on r) k ↔ 0 ≤ i ∧ i < (PB.at' t.axis.orth r).dist.localNrTiles ∧
      (if t.lower then (k : Int) < (PB.at' t.axis.orth r).gl i else (PB.at' t.axis.orth r).gl i < k) := by
  have hpo : Plain (PB.at' t.axis.orth r) := Params2.plain (h.plainB _) hr
  have hab : PA.at' t.axis.orth r = PB.at' t.axis.orth r := by
    show (PA.get t.axis.orth).onRank _ = (PB.get t.axis.orth).onRank _
    rw [h.lines]
  have hkB : (k : Int) < (PB.at' t.axis.orth r).dist.nrTiles := by
    show (k : Int) < (PB.get t.axis.orth).dist.nrTiles
    rw [h.lines, h.nr_eq t.axis.orth t.axis]
    unfold Params.ntn at hk; omega
  unfold trailing
  simp only [Params2.on_get]
  rw [show ((PA.get t.axis.orth).onRank (r.get t.axis.orth)) = PB.at' t.axis.orth r from hab]
  split
  · rw [mem_irange]
    show (PB.at' t.axis.orth r).nx (k + 1) ≤ i ∧ _ ↔ _
    constructor
    · rintro ⟨h1, h2⟩
      have h0 : 0 ≤ i := by have := hpo.nx_nonneg (s := (k : Int) + 1) (by omega); omega
      refine ⟨h0, h2, ?_⟩
      by_contra hc
      have := (hpo.lt_nx h0 (s := (k : Int) + 1) (by omega)).2 (by omega)
      omega
    · rintro ⟨h0, h2, h3⟩
      refine ⟨?_, h2⟩
      by_contra hc
      have := (hpo.lt_nx h0 (s := (k : Int) + 1) (by omega)).1 (by omega)
      omega
  · rw [List.mem_reverse, mem_irange]
    show 0 ≤ i ∧ i < (PB.at' t.axis.orth r).nx k ↔ _
    constructor
    · rintro ⟨h0, h1⟩
      have := hpo.nx_mono (show (0 : Int) ≤ k by omega) (Int.le_of_lt hkB)
      rw [hpo.nx_all] at this
      exact ⟨h0, by omega, (hpo.lt_nx h0 (by omega)).1 h1⟩
    · rintro ⟨h0, _, h3⟩
      exact ⟨h0, (hpo.lt_nx h0 (by omega)).2 h3⟩

theorem update_step (h : TriDist t.axis.orth PA PB) {dbg : Bool} {k : Nat} (hk : k < (PA.get t.axis).ntn) {a b b' : Tiles K} {P : Nat → Blk K}
    {W : Int → Blk K} (hW : ∀ i : Nat, (if t.lower then k ≤ i else i ≤ k) → W i = a (i, k))
    (hu : ∀ i < (PA.get t.axis).ntn, (if t.lower then k < i else i < k) → ∀ j < (PB.get t.axis).ntn, t.upd (a (i, k)) (P j) (b (i, j)) = some (b' (i, j)))
    {r : Coord2} (hr : r ∈ PB.ranks) {m : Nat → Coord2 → Blk K}
    (hv : ∀ i ∈ t.trailing (PA.on r) (PB.on r) k, ∀ j ∈ dirRange t.jUp 0 (PB.at' t.axis r).dist.localNrTiles, m 1 (tileAt t.axis i j) =
      t.newB PB b r (tileAt t.axis i j)) {rest : Nat → PanD K} :
    LStep (t.env PA PB) r (rrIdx (t.iterG PA k)) (t.update dbg (PA.on r) (PB.on r) k)
      (Abs.of m rest [⟨(PA.get t.axis).dist.global_tile_size_of k, t.start k, (PA.get t.axis.orth).dist.nrTiles,
          content (PA.at' t.axis.orth r) (t.start k) (PA.get t.axis.orth).dist.nrTiles W⟩,
        ⟨(PA.get t.axis).dist.global_tile_size_of k, 0, (PB.get t.axis).dist.nrTiles,
          content (PB.at' t.axis r) 0 (PB.get t.axis).dist.nrTiles (fun j => P j.toNat)⟩])
      (Abs.of (set1 m 1 fun z => if z ∈ t.trailPos PA PB r k then t.newB PB b' r z else m 1 z) rest
        [⟨(PA.get t.axis).dist.global_tile_size_of k, t.start k, (PA.get t.axis.orth).dist.nrTiles,
          content (PA.at' t.axis.orth r) (t.start k) (PA.get t.axis.orth).dist.nrTiles W⟩,
        ⟨(PA.get t.axis).dist.global_tile_size_of k, 0, (PB.get t.axis).dist.nrTiles,
          content (PB.at' t.axis r) 0 (PB.get t.axis).dist.nrTiles (fun j => P j.toNat)⟩]) := by
  have hE := env_ok h
  have hrA : r ∈ PA.ranks := h.ranksA ▸ hr
  have hn := h.nr_eq t.axis.orth t.axis
  have hkA : (k : Int) < (PA.get t.axis).dist.nrTiles := by unfold Params.ntn at hk; omega
  have hkpos := (h.plainA t.axis).size_pos (t := (k : Int)) (by omega) hkA
  have hpo : Plain (PB.at' t.axis.orth r) := Params2.plain (h.plainB _) hr
  have hpb : Plain (PB.at' t.axis r) := Params2.plain (h.plainB _) hr
  have hab : PA.at' t.axis.orth r = PB.at' t.axis.orth r := by
    show (PA.get t.axis.orth).onRank _ = (PB.get t.axis.orth).onRank _
    rw [h.lines]
  have hst : 0 ≤ t.start k ∧ t.start k ≤ k := by unfold start; split <;> omega
  let kz := (PA.get t.axis).dist.global_tile_size_of k
  let nA := (PA.get t.axis.orth).dist.nrTiles
  let nB := (PB.get t.axis).dist.nrTiles
  let A0 : Abs K := Abs.of m rest [⟨kz, t.start k, nA, content (PA.at' t.axis.orth r) (t.start k) nA W⟩,
        ⟨kz, 0, nB, content (PB.at' t.axis r) 0 nB (fun j => P j.toNat)⟩]
  let zs := (t.trailing (PA.on r) (PB.on r) k).flatMap fun i => (dirRange t.jUp 0 (PB.at' t.axis r).dist.localNrTiles).map fun j => (⟨i, j⟩ : Coord2)
  have hzs : ∀ z, z ∈ zs ↔ z.row ∈ t.trailing (PA.on r) (PB.on r) k ∧ z.col ∈ dirRange t.jUp 0 (PB.at' t.axis r).dist.localNrTiles := by
    intro z
    show z ∈ List.flatMap _ _ ↔ _
    simp only [List.mem_flatMap, List.mem_map]
    constructor
    · rintro ⟨i, hi, j, hj, rfl⟩; exact ⟨hi, hj⟩
    · rintro ⟨hi, hj⟩; exact ⟨z.row, hi, z.col, hj, rfl⟩
  have hpos : zs.map (fun z => tileAt t.axis z.row z.col) = t.trailPos PA PB r k := by
    unfold trailPos
    show (List.flatMap _ _).map _ = _
    rw [List.map_flatMap]
    simp only [List.map_map]
    rfl
  have hnd : (zs.map (fun z => tileAt t.axis z.row z.col)).Nodup := by
    refine List.Nodup.map ?_ ?_
    · intro x y hxy
      obtain ⟨h1, h2⟩ := tileAt_inj hxy
      cases x; cases y; simp_all
    · show (List.flatMap _ _).Nodup
      rw [List.nodup_flatMap]
      refine ⟨fun i _ => (dirRange_nodup _ _ _).map fun x y h => by simpa using h, ?_⟩
      refine (trailing_nodup _ _ _).imp ?_
      intro x y hxy z h1 h2
      rw [List.mem_map] at h1 h2
      obtain ⟨p, _, rfl⟩ := h1
      obtain ⟨q, _, h⟩ := h2
      exact hxy (by simpa using (congrArg Coord2.row h).symm)
  have hprog : t.update dbg (PA.on r) (PB.on r) k = zs.map fun z => fun s =>
      ((DSt.panel 0 (t.iterG PA k)).read dbg z.row s).bind fun sa => ((DSt.panel 1 (t.iterG PA k)).read dbg z.col sa.1).bind fun sb =>
      DSt.task 1 (tileAt t.axis z.row z.col) (t.upd sa.2 sb.2) sb.1 := by
    unfold update
    rw [flatMap_map_pair]
    simp only [iter_on, Params2.on_get]
    rfl
  rw [hprog]
  have key := LStep.tasks (E := t.env PA PB) (r := r) (w := rrIdx (t.iterG PA k)) (a := A0) (n := 1) zs
    (fun z => fun s => ((DSt.panel 0 (t.iterG PA k)).read dbg z.row s).bind fun sa => ((DSt.panel 1 (t.iterG PA k)).read dbg z.col sa.1).bind fun sb =>
      DSt.task 1 (tileAt t.axis z.row z.col) (t.upd sa.2 sb.2) sb.1) (fun z => tileAt t.axis z.row z.col) (t.newB PB b' r) hnd (by
    intro z hz m1 hm _
    rw [hzs] at hz
    obtain ⟨hi, hj⟩ := hz
    have hold : m1 (tileAt t.axis z.row z.col) = t.newB PB b r (tileAt t.axis z.row z.col) := by rw [hm]; exact hv _ hi _ hj
    rw [mem_trailing h hr hk] at hi
    rw [mem_dirRange] at hj
    have gi0 := hpo.gl_nonneg hi.1
    have gi1 : (PB.at' t.axis.orth r).gl z.row < (PB.get t.axis.orth).dist.nrTiles := hpo.gl_lt hi.1 hi.2.1
    have gj0 := hpb.gl_nonneg hj.1
    have gj1 : (PB.at' t.axis r).gl z.col < (PB.get t.axis).dist.nrTiles := hpb.gl_lt hj.1 hj.2
    have hnl : (PB.get t.axis.orth).dist.nrTiles = (PA.get t.axis).dist.nrTiles := by rw [h.lines]; exact hn
    have gi1' : (PB.at' t.axis.orth r).gl z.row < nA := by show _ < (PA.get t.axis.orth).dist.nrTiles; omega
    have hnat : ((((PB.at' t.axis.orth r).gl z.row).toNat : Nat) : Int) = (PB.at' t.axis.orth r).gl z.row := by omega
    have ci := hpo.content_at (i := z.row) (s := t.start k) (e := nA) W hi.1 hst.1 (by show 0 ≤ (PA.get t.axis.orth).dist.nrTiles; omega) (by
      unfold start
      have := hi.2.2
      split <;> rename_i hl
      · rw [if_pos hl] at this; omega
      · exact gi0) gi1'
    have cj := hpb.content_at (i := z.col) (s := 0) (e := nB) (fun j => P j.toNat) hj.1 (le_refl _) hpb.nrTiles_nonneg gj0 gj1
    have hWi : W ((PB.at' t.axis.orth r).gl z.row) = a (((PB.at' t.axis.orth r).gl z.row).toNat, k) := by
      have := hW ((PB.at' t.axis.orth r).gl z.row).toNat (by
        have := hi.2.2
        split <;> rename_i hl
        · rw [if_pos hl] at this; omega
        · rw [if_neg hl] at this; omega)
      rwa [hnat] at this
    rw [hWi] at ci
    refine .one fun x hx => ?_
    obtain ⟨x1, e1, h1⟩ := hx.read hE hr (it := t.iterG PA k) (n := 0) (dbg := dbg) (i := z.row) (v := a (((PB.at' t.axis.orth r).gl z.row).toNat, k))
      (Int.le_of_lt hkpos) hst.1 (by show InRange (PA.at' t.axis.orth r) _ _ _; rw [hab]; exact ci.2)
      (by show content (PA.at' t.axis.orth r) _ _ _ _ = _; rw [hab]; exact ci.1)
    obtain ⟨x2, e2, h2⟩ := h1.read hE hr (it := t.iterG PA k) (n := 1) (dbg := dbg) (i := z.col) (v := P ((PB.at' t.axis r).gl z.col).toNat)
      (Int.le_of_lt hkpos) (le_refl _) (by rw [crd1]; exact cj.2) cj.1
    obtain ⟨x3, e3, h3⟩ := h2.task (n := 1) (idx := tileAt t.axis z.row z.col)
      (f := t.upd (a (((PB.at' t.axis.orth r).gl z.row).toNat, k)) (P ((PB.at' t.axis r).gl z.col).toNat)) (v := t.newB PB b' r (tileAt t.axis z.row z.col)) (by
        rw [Abs.setMat_same, hold, newB_at, newB_at]
        refine hu _ (by unfold Params.ntn; omega) ?_ _ (by unfold Params.ntn; omega)
        have := hi.2.2
        split <;> rename_i hl
        · rw [if_pos hl] at this; omega
        · rw [if_neg hl] at this; omega)
    refine ⟨x3, by rw [e1, Option.bind_some, e2, Option.bind_some]; exact e3, ?_⟩
    have : (A0.setMat 1 m1).setMat 1 (set1 ((A0.setMat 1 m1).mat 1) (tileAt t.axis z.row z.col) (t.newB PB b' r (tileAt t.axis z.row z.col))) =
        A0.setMat 1 (set1 m1 (tileAt t.axis z.row z.col) (t.newB PB b' r (tileAt t.axis z.row z.col))) := by
      rw [Abs.setMat_same]
      unfold Abs.setMat
      dsimp only
      rw [set1_set1]
    rw [← this]
    exact h3)
  rw [hpos] at key
  exact key

/-- The matrix B of a process after the tiles of line `k`. -/
def afterDiag (t : TriAlg K) (PA PB : Params2) (k : Nat) (b' : Tiles K) (r : Coord2) (m : Nat → Coord2 → Blk K) : Nat → Coord2 → Blk K :=
  set1 m 1 fun z => if r.get t.axis.orth = (PA.get t.axis.orth).dist.rank_global_tile k ∧
      z ∈ t.diagPos PB r k (dirRange t.jUp 0 (PB.at' t.axis r).dist.localNrTiles) then t.newB PB b' r z else m 1 z

/-- ... and after the trailing matrix. -/
def afterUpd (t : TriAlg K) (PA PB : Params2) (k : Nat) (b' : Tiles K) (r : Coord2) (m : Nat → Coord2 → Blk K) : Nat → Coord2 → Blk K :=
  set1 (t.afterDiag PA PB k b' r m) 1 fun z => if z ∈ t.trailPos PA PB r k then t.newB PB b' r z else t.afterDiag PA PB k b' r m 1 z

theorem mem_diagPos {r : Coord2} {k : Nat} {i j : Int} {xs : List Int} :
    tileAt t.axis i j ∈ t.diagPos PB r k xs ↔ i = (PB.at' t.axis.orth r).lc k ∧ j ∈ xs := by
  unfold diagPos
  rw [List.mem_map]
  constructor
  · rintro ⟨q, hq, he⟩
    obtain ⟨h1, h2⟩ := tileAt_inj he
    exact ⟨h1.symm, h2 ▸ hq⟩
  · rintro ⟨rfl, hj⟩
    exact ⟨j, hj, rfl⟩

theorem mem_trailPos {r : Coord2} {k : Nat} {i j : Int} : tileAt t.axis i j ∈ t.trailPos PA PB r k ↔
    i ∈ t.trailing (PA.on r) (PB.on r) k ∧ j ∈ dirRange t.jUp 0 (PB.at' t.axis r).dist.localNrTiles := by
  unfold trailPos
  simp only [List.mem_flatMap, List.mem_map]
  constructor
  · rintro ⟨p, hp, q, hq, he⟩
    obtain ⟨h1, h2⟩ := tileAt_inj he
    exact ⟨h1 ▸ hp, h2 ▸ hq⟩
  · rintro ⟨h1, h2⟩
    exact ⟨i, h1, j, h2, rfl⟩

/-- The tiles of line `k` of B are those of `b'`, the other tiles are not changed yet. -/
theorem afterDiag_at (h : TriDist t.axis.orth PA PB) {k : Nat} (b' : Tiles K) {r : Coord2} (hr : r ∈ PB.ranks)
    {b : Tiles K} {m : Nat → Coord2 → Blk K} (hv : LView PB t.axis r b (m 1)) {i j : Int} (hi : 0 ≤ i)
    (hi' : i < (PB.at' t.axis.orth r).dist.localNrTiles) (hj : 0 ≤ j) (hj' : j < (PB.at' t.axis r).dist.localNrTiles) :
    t.afterDiag PA PB k b' r m 1 (tileAt t.axis i j) = if (PB.at' t.axis.orth r).gl i = k then t.newB PB b' r (tileAt t.axis i j)
      else t.newB PB b r (tileAt t.axis i j) := by
  have hpo : Plain (PB.at' t.axis.orth r) := Params2.plain (h.plainB _) hr
  unfold afterDiag
  rw [set1_same]
  have hold := hv i j hi hi' hj hj'
  rw [← newB_at (t := t) (PB := PB) b r i j] at hold
  rw [hold]
  refine if_congr ?_ rfl rfl
  rw [mem_diagPos]
  constructor
  · rintro ⟨ho, rfl, _⟩
    exact hpo.gl_lc (t := (k : Int)) (by omega) (by rw [← h.lines] at ho; exact ho.symm)
  · intro hg
    refine ⟨?_, ?_, mem_dirRange.2 ⟨hj, hj'⟩⟩
    · rw [← hg, ← h.lines]
      exact (hpo.gl_own hi).symm
    · rw [← hg, hpo.lc_gl hi]

theorem afterUpd_view (h : TriDist t.axis.orth PA PB) {k : Nat} (hk : k < (PA.get t.axis).ntn) {b b' : Tiles K} {r : Coord2} (hr : r ∈ PB.ranks)
    {m : Nat → Coord2 → Blk K} (hv : LView PB t.axis r b (m 1))
    (hrest : ∀ i < (PA.get t.axis).ntn, i ≠ k → ¬ (if t.lower then k < i else i < k) → ∀ j < (PB.get t.axis).ntn, b' (i, j) = b (i, j)) :
    LView PB t.axis r b' (t.afterUpd PA PB k b' r m 1) := by
  have hpo : Plain (PB.at' t.axis.orth r) := Params2.plain (h.plainB _) hr
  have hpb : Plain (PB.at' t.axis r) := Params2.plain (h.plainB _) hr
  intro i j hi hi' hj hj'
  unfold afterUpd
  rw [set1_same, ← newB_at (t := t) (PB := PB) b' r i j]
  by_cases hz : tileAt t.axis i j ∈ t.trailPos PA PB r k
  · rw [if_pos hz]
  · rw [if_neg hz, afterDiag_at h b' hr hv hi hi' hj hj']
    by_cases hg : (PB.at' t.axis.orth r).gl i = k
    · rw [if_pos hg]
    · rw [if_neg hg, newB_at, newB_at]
      have gi0 := hpo.gl_nonneg hi
      have gi1 : (PB.at' t.axis.orth r).gl i < (PB.get t.axis.orth).dist.nrTiles := hpo.gl_lt hi hi'
      have gj0 := hpb.gl_nonneg hj
      have gj1 : (PB.at' t.axis r).gl j < (PB.get t.axis).dist.nrTiles := hpb.gl_lt hj hj'
      rw [h.lines, h.nr_eq t.axis.orth t.axis] at gi1
      refine (hrest _ (by unfold Params.ntn; omega) (by omega) ?_ _ (by unfold Params.ntn; omega)).symm
      intro hc
      apply hz
      rw [mem_trailPos, mem_trailing h hr hk, mem_dirRange]
      refine ⟨⟨hi, hi', ?_⟩, hj, hj'⟩
      split <;> rename_i hl
      · rw [if_pos hl] at hc; omega
      · rw [if_neg hl] at hc; omega

end TriAlg
end DLAF
