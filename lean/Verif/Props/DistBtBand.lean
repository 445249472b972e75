import Verif.Lemmas.DistT2BProgram
import Verif.Lemmas.DistT2BSigs
import Verif.Lemmas.DistBtProps
import Verif.Props.BtBandTridiag
/- C66: distributed back-transformation from tridiagonal to band form. -/
namespace DLAF
variable {K : Type*} [RCLike K] {PV PC : Params2} {n m b : Nat}

section
variable (hV : SquareDist PV) (hrow : PC.row = PV.row) (hcol : Plain PC.col) (hgrid : PC.col.grid = PV.col.grid)
  (hn : PV.row.size = n) (hm : PC.col.size = m) (hb : 2 ≤ b) (hd : (b : Int) ∣ PV.row.tile)
  {cplx : Bool} {E : Coord2 → T2BEnv K} (hE : ∀ r, (E r).cplx = cplx) (hG : ∀ r, 0 < (E r).group) (hl : ∀ r, LarftSpec (E r).larft) {pipelines : Nat} (hp : 2 ≤ pipelines)
include hV hrow hcol hgrid hn hm hb hd hE hG hl hp

/-- C66.  The matrix of reflectors, of order `n`, is distributed over any grid with any source ranks and tile size, without offset; the band width is at least 2 and divides the
tile size; the rows of `C` are distributed as those of the matrix of reflectors, its `m` columns over the same grid with any tile size and source rank.  Then under every schedule
of the processes the call ends without abort or deadlock, whatever is in the workspaces, for any group sizes and any `larft` that satisfies LAPACK's contract; every process then
holds its tiles of `Q C`, where `Q` is the documented product of the stored reflectors (the same `Q` as in C47 and C48); the matrix of reflectors is unchanged. -/
theorem C66_bt_band_to_tridiagonal_distributed (V C : Elems K) {st : Coord2 → DT2BSt K}
    (hv : ∀ r ∈ PV.ranks, HoldsElems PV r V (st r).hh) (hc : ∀ r ∈ PV.ranks, HoldsElems PC r C (st r).e) :
    ∃ C' : Elems K, toM n m C' = hhQ cplx n b V * toM n m C ∧
      AlwaysEnds (Conf.init (fun r => if r ∈ PV.ranks then DistT2B.program (E r) pipelines b (PV.on r) (PC.on r) else []) st) fun fin =>
          ∀ r ∈ PV.ranks, HoldsElems PC r C' (fin r).e ∧ HoldsElems PV r V (fin r).hh := by
  obtain ⟨row, cc⟩ := PC
  dsimp only at hrow hcol hgrid hm
  subst hrow
  obtain ⟨mb, hmb⟩ : ∃ mb : Nat, PV.row.tile = mb := ⟨PV.row.tile.toNat, by have := hV.row.tile_pos; omega⟩
  obtain ⟨nbc, hnbc⟩ : ∃ nbc : Nat, cc.tile = nbc := ⟨cc.tile.toNat, by have := hcol.tile_pos; omega⟩
  have a1 : Ax PV.row n mb := ⟨hV.row, hn, hmb⟩
  have a2 : Ax PV.col n mb := ⟨hV.col, by rw [← hV.size]; exact hn, by rw [← hV.tile]; exact hmb⟩
  have a3 : Ax cc m nbc := ⟨hcol, hm, hnbc⟩
  obtain ⟨t, ht⟩ : ∃ t, mb = t * b := by
    rw [hmb, Int.natCast_dvd_natCast] at hd
    obtain ⟨t, h⟩ := hd
    exact ⟨t, by rw [h, Nat.mul_comm]⟩
  have hrk : ∀ r ∈ PV.ranks, r ∈ (⟨PV.row, cc⟩ : Params2).ranks := by
    intro r h
    rw [Params2.mem_ranks] at h ⊢
    intro c
    cases c
    · exact h .Row
    · have := h .Col
      exact ⟨this.1, by show _ < cc.grid; rw [hgrid]; exact this.2⟩
  obtain ⟨g', C', r1, b1, m1⟩ := DistT2B.program_runs (b := b) (V := V) (t := t) ⟨a1, a2, a3, hgrid, hb, ht⟩ hE hG hl hp C (Clean.init PV.ranks st) (fun r h =>
      ⟨WinAt.of_holds (P := ⟨PV.row, cc⟩) a1 a3 (hrk r h) (hc r h), WinAt.of_holds a1 a2 h (hv r h)⟩)
  exact ⟨C', m1, r1.alwaysEnds fun r h => ⟨WinAt.holds (P := ⟨PV.row, cc⟩) a1 a3 (hrk r h) (b1 r h).e, WinAt.holds a1 a2 h (b1 r h).hh⟩⟩

/-- C66.  The distributed call computes what the local call (C48) computes on one process, with any tile sizes, group size and workspace contents there. -/
theorem C66_same_as_local (V C : Elems K) {st : Coord2 → DT2BSt K}
    (hv : ∀ r ∈ PV.ranks, HoldsElems PV r V (st r).hh) (hc : ∀ r ∈ PV.ranks, HoldsElems PC r C (st r).e)
    {F : T2BEnv K} (hF : F.cplx = cplx) (hGF : 0 < F.group) (hlF : LarftSpec F.larft) {nb' nbe' : Nat} (hnb' : nb' % b = 0) (hnbe' : 0 < nbe') :
    ∃ C' : Elems K, btBandToTridiag F n m nb' nbe' b V C = some C' ∧
      AlwaysEnds (Conf.init (fun r => if r ∈ PV.ranks then DistT2B.program (E r) pipelines b (PV.on r) (PC.on r) else []) st) fun fin =>
        ∀ r ∈ PV.ranks, HoldsElems PC r C' (fin r).e := by
  obtain ⟨C', h1, h2, _⟩ := C48_back_transformation (n := n) (m := m) hlF hGF hnbe' hb hnb' V C
  obtain ⟨D, m1, k, f, d1, d2, d3⟩ := C66_bt_band_to_tridiagonal_distributed hV hrow hcol hgrid hn hm hb hd hE hG hl hp V C hv hc
  rw [hF] at h2
  refine ⟨C', h1, k, f, d1, fun r h => ?_, d3⟩
  obtain ⟨row, cc⟩ := PC
  dsimp only at hrow hcol hgrid hm
  subst hrow
  obtain ⟨mb, hmb⟩ : ∃ mb : Nat, PV.row.tile = mb := ⟨PV.row.tile.toNat, by have := hV.row.tile_pos; omega⟩
  obtain ⟨nbc, hnbc⟩ : ∃ nbc : Nat, cc.tile = nbc := ⟨cc.tile.toNat, by have := hcol.tile_pos; omega⟩
  have a1 : Ax PV.row n mb := ⟨hV.row, hn, hmb⟩
  have a3 : Ax cc m nbc := ⟨hcol, hm, hnbc⟩
  have hrk : r ∈ (⟨PV.row, cc⟩ : Params2).ranks := by
    rw [Params2.mem_ranks] at h ⊢
    intro c
    cases c
    · exact h .Row
    · have := h .Col
      exact ⟨this.1, by show _ < cc.grid; rw [hgrid]; exact this.2⟩
  refine WinAt.holds (P := ⟨PV.row, cc⟩) a1 a3 hrk ((WinAt.of_holds (P := ⟨PV.row, cc⟩) a1 a3 hrk (d2 r h).1).congr a1 a3 hrk fun x hx y hy => ?_)
  have e := congrFun (congrFun (m1.trans h2.symm) ⟨x, hx⟩) ⟨y, hy⟩
  exact e

end

/-- C66.  A band width smaller than 2 or that does not divide the tile size, and, if there are reflectors and columns to apply them to, a grid with fewer than two communicator
pipelines, is refused by every process: no process makes a step. -/
theorem C66_refused {E : Coord2 → T2BEnv K} {pipelines : Nat} (hn : PV.row.size = n) (hrow : PC.row.size = PV.row.size) (hcol : PV.col.size = PV.row.size)
    (h : b < 2 ∨ cmod PV.row.tile b ≠ 0 ∨ (pipelines < 2 ∧ PC.col.size ≠ 0 ∧ ∀ r, (if (E r).cplx then 1 else 2) < n)) (st : Coord2 → DT2BSt K) {r : Coord2} (hr : r ∈ PV.ranks) :
    let c := Conf.init (fun r => if r ∈ PV.ranks then DistT2B.program (E r) pipelines b (PV.on r) (PC.on r) else []) st
    (∀ q, c.step q = none) ∧ ¬ c.Done := by
  have hp : ∀ q, DistT2B.program (E q) pipelines b (PV.on q) (PC.on q) = [.loc fun _ => none] := by
    intro q
    have s1 : (PV.on q).row.size = n := hn
    have s2 : (PV.on q).col.size = n := hcol.trans hn
    have s3 : (PC.on q).row.size = n := hrow.trans hn
    have s4 : (PC.on q).col.size = PC.col.size := rfl
    have s5 : (PV.on q).row.tileSize = PV.row.tile := rfl
    unfold DistT2B.program
    rw [s5]
    by_cases hbad : b < 2 ∨ cmod PV.row.tile b ≠ 0
    · rw [if_pos]
      rintro ⟨h1, h2⟩
      rcases hbad with h | h
      · omega
      · exact h h2
    · obtain ⟨p1, p2, p3⟩ : pipelines < 2 ∧ PC.col.size ≠ 0 ∧ ∀ r, (if (E r).cplx then 1 else 2) < n := by
        rcases h with h | h | h
        · exact absurd (.inl h) hbad
        · exact absurd (.inr h) hbad
        · exact h
      have p3 := p3 q
      rw [if_neg, s1, s2, s3, s4, if_neg (by omega), if_neg, if_pos p1]
      · unfold t2bSweeps
        cases hc : (E q).cplx <;> simp [hc] at p3 ⊢ <;> omega
      · intro h
        apply h
        constructor
        · by_contra hh; exact hbad (.inl (by omega))
        · by_contra hh; exact hbad (.inr hh)
  intro c
  constructor
  · intro q
    show Conf.step (Conf.init _ st) q = none
    unfold Conf.step Conf.init
    dsimp only
    by_cases hq : q ∈ PV.ranks
    · rw [if_pos hq, hp q]; rfl
    · rw [if_neg hq]
  · intro hdn
    have := hdn r
    have e : c.prog r = [.loc fun _ => none] := by
      show (if r ∈ PV.ranks then _ else _) = _
      rw [if_pos hr, hp r]
    rw [e] at this
    exact absurd this (by simp)

/-- C66.  All members of each row communicator perform the same sequence of broadcasts with the same roots, and the two processes of each pair exchange the same sequence of
messages with the same tags. -/
theorem C66_same_collectives {cplx : Bool} {E : Coord2 → T2BEnv K} (hE : ∀ r, (E r).cplx = cplx) (pipelines : Nat) :
    SameCollectives PV.ranks fun r => DistT2B.program (E r) pipelines b (PV.on r) (PC.on r) := DistT2B.program_sigs hE pipelines

/- Non-vacuity: complex type, order 11, band width 2, tiles of 4 x 4 on a 2 x 3 grid with source rank (1, 2); `C` with 7 columns in tiles of 3, whose first tile is on process
column 1; there are blocks in one tile row, in two tile rows of the same process, and in two tile rows of two processes; workspaces and group sizes differ from process to process. -/
section example_
private def xbPV : Params2 := ⟨⟨11, 4, 4, 2, 0, 1, 0⟩, ⟨11, 4, 4, 3, 0, 2, 0⟩⟩
private def xbPC : Params2 := ⟨⟨11, 4, 4, 2, 0, 1, 0⟩, ⟨7, 3, 3, 3, 0, 1, 0⟩⟩
private noncomputable def xbE (r : Coord2) : T2BEnv ℂ :=
  ⟨larftStd, 1 + r.row.toNat, true, fun _ _ x y => (x : ℂ) + y, fun _ _ _ _ => r.col, fun _ _ _ _ => 7, fun _ _ x _ => x⟩

private noncomputable def xbLoc (P : Params2) (M : Elems ℂ) (r : Coord2) : Coord2 → Blk ℂ := fun l =>
  ⟨P.row.tileSizes ((P.at' .Row r).dist.global_tile_from_local_tile l.row).toNat, P.col.tileSizes ((P.at' .Col r).dist.global_tile_from_local_tile l.col).toNat,
    fun x y => M (((P.at' .Row r).dist.global_tile_from_local_tile l.row).toNat * P.row.tile.toNat + x)
      (((P.at' .Col r).dist.global_tile_from_local_tile l.col).toNat * P.col.tile.toNat + y)⟩

private theorem xbLoc_holds {P : Params2} (h1 : Plain P.row) (h2 : Plain P.col) {r : Coord2} (hr : r ∈ P.ranks) (M : Elems ℂ) : HoldsElems P r M (xbLoc P M r) := by
  intro i _ j _ o1 o2
  have a1 : Plain (P.at' .Row r) := Params2.plain (c := .Row) h1 hr
  have a2 : Plain (P.at' .Col r) := Params2.plain (c := .Col) h2 hr
  have e1 : (P.at' .Row r).dist.global_tile_from_local_tile ((P.at' .Row r).dist.local_tile_from_global_tile i) = i := a1.gl_lc (by omega) o1
  have e2 : (P.at' .Col r).dist.global_tile_from_local_tile ((P.at' .Col r).dist.local_tile_from_global_tile j) = j := a2.gl_lc (by omega) o2
  unfold xbLoc
  dsimp only
  rw [e1, e2, Int.toNat_natCast, Int.toNat_natCast]
  exact ⟨rfl, rfl, fun _ _ _ _ => rfl⟩

private noncomputable def xbSt (V C : Elems ℂ) (r : Coord2) : DT2BSt ℂ :=
  let z : Blk ℂ := ⟨2, 2, fun _ _ => 3⟩
  ⟨xbLoc xbPC C r, xbLoc xbPV V r, fun _ => z, fun _ => z, fun _ => z, fun _ _ => z, fun _ _ => z⟩

example (V C : Elems ℂ) : ∃ C' : Elems ℂ, toM 11 7 C' = hhQ true 11 2 V * toM 11 7 C ∧
      AlwaysEnds (Conf.init (fun r => if r ∈ xbPV.ranks then DistT2B.program (xbE r) 3 2 (xbPV.on r) (xbPC.on r) else []) (xbSt V C)) fun fin =>
          ∀ r ∈ xbPV.ranks, HoldsElems xbPC r C' (fin r).e ∧ HoldsElems xbPV r V (fin r).hh :=
  C66_bt_band_to_tridiagonal_distributed (PV := xbPV) (PC := xbPC) (n := 11) (m := 7) (b := 2) (E := xbE) (cplx := true) (pipelines := 3) (st := xbSt V C)
    (by decide) rfl (by decide) rfl rfl rfl (by omega) (by decide)
    (fun _ => rfl) (fun r => by show 0 < 1 + _; omega) (fun _ => larftStd_spec) (by omega) V C
    (fun r h => xbLoc_holds (by decide) (by decide) h _) (fun r h => xbLoc_holds (P := xbPC) (by decide) (by decide) h _)

example : xbPV.ranks.length = 6 ∧ (4, 1) ∈ DistT2B.epochs true 11 2 ∧ DistT2B.acrossRanks 11 2 (xbPC.on ⟨0, 0⟩) 1 = true ∧
    DistT2B.acrossTiles 11 2 2 = true ∧ DistT2B.acrossRanks 11 2 (xbPC.on ⟨0, 0⟩) 2 = false ∧ DistT2B.acrossTiles 11 2 5 = false := by decide +kernel
end example_

end DLAF
