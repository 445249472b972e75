import Verif.Lemmas.DistBtProps
/- C61: distributed back-transformation of the reduction to band. -/
namespace DLAF
variable {K : Type*} [Field K] [StarRing K] {PV PC : Params2} {n m b : Nat}

section
variable (hV : SquareDist PV) (hrow : PC.row = PV.row) (hcol : Plain PC.col) (hgrid : PC.col.grid = PV.col.grid)
  (hn : PV.row.size = n) (hm : PC.col.size = m) {avail : Coord2 → Nat} (ha : ∀ r, 0 < avail r) (junk : Coord2 → Int → Int → Blk K)
include hV hrow hcol hgrid hn hm ha

/-- C61.  `V` of order `n` is distributed over any grid with any source ranks and tile size, without offset; the rows of `C` are distributed as those of `V`, its `m` columns over
the same grid with any tile size and source rank; the scaling factors are stored as the reduction to band returns them.  Then under every schedule of the processes the call ends
without abort or deadlock, whatever is in the workspaces and for any number of workers; every process then holds its tiles of `H_0 H_1 ... H_{r-1} C`, where `r = n - b - 1`
(no reflector if `n ≤ b + 1`) and the reflectors are those stored below the `b`-th subdiagonal of `V`; `V` and the scaling factors are unchanged. -/
theorem C61_bt_reduction_to_band_distributed (V C : Elems K) (taus : Nat → K) {st : Coord2 → DBtSt K}
    (hv : ∀ r ∈ PV.ranks, HoldsElems PV r V (st r).v) (hc : ∀ r ∈ PV.ranks, HoldsElems PC r C (st r).c)
    (ht : ∀ r ∈ PV.ranks, HoldsVec (tausParams PV.col b) r.col taus (st r).tau) :
    ∃ C' : Elems K, toM n m C' = reflectorProd n (storedRefl b V) taus (n - b - 1) * toM n m C ∧
      AlwaysEnds (Conf.init (fun r => if r ∈ PV.ranks then DistBt.program n PV.row.tile b (avail r) (junk r) (PV.on r) (PC.on r)
        ((tausParams PV.col b).onRank r.col).dist else []) st) fun fin =>
          ∀ r ∈ PV.ranks, HoldsElems PC r C' (fin r).c ∧ HoldsElems PV r V (fin r).v := by
  obtain ⟨row, cc⟩ := PC
  dsimp only at hrow hcol hgrid hm
  subst hrow
  obtain ⟨mb, hmb⟩ : ∃ mb : Nat, PV.row.tile = mb := ⟨PV.row.tile.toNat, by have := hV.row.tile_pos; omega⟩
  obtain ⟨nbc, hnbc⟩ : ∃ nbc : Nat, cc.tile = nbc := ⟨cc.tile.toNat, by have := hcol.tile_pos; omega⟩
  have a1 : Ax PV.row n mb := ⟨hV.row, hn, hmb⟩
  have a2 : Ax PV.col n mb := ⟨hV.col, by rw [← hV.size]; exact hn, by rw [← hV.tile]; exact hmb⟩
  have a3 : Ax cc m nbc := ⟨hcol, hm, hnbc⟩
  have hrk : ∀ r ∈ PV.ranks, r ∈ (⟨PV.row, cc⟩ : Params2).ranks := by
    intro r h
    rw [Params2.mem_ranks] at h ⊢
    intro c
    cases c
    · exact h .Row
    · have := h .Col
      exact ⟨this.1, by show _ < cc.grid; rw [hgrid]; exact this.2⟩
  obtain ⟨g', C', r1, b1, m1⟩ := DistBt.program_runs (b := b) (dt := fun r => ((tausParams PV.col b).onRank r.col).dist) (V := V) (taus := taus) (C := C)
    a1 a2 a3 hgrid ha junk (Clean.init PV.ranks st) (fun r h =>
      ⟨WinAt.of_holds (P := ⟨PV.row, cc⟩) a1 a3 (hrk r h) (hc r h), WinAt.of_holds a1 a2 h (hv r h), TausAt.of_holds a2 (ht r h)⟩)
  rw [← hmb] at r1
  exact ⟨C', m1, r1.alwaysEnds fun r h => ⟨WinAt.holds (P := ⟨PV.row, cc⟩) a1 a3 (hrk r h) (b1 r h).c, WinAt.holds a1 a2 h (b1 r h).v⟩⟩

/-- C61.  The distributed call computes what the local call (C45) computes on one process, with any tile sizes and number of workers there. -/
theorem C61_same_as_local (V C : Elems K) (taus : Nat → K) {st : Coord2 → DBtSt K}
    (hv : ∀ r ∈ PV.ranks, HoldsElems PV r V (st r).v) (hc : ∀ r ∈ PV.ranks, HoldsElems PC r C (st r).c)
    (ht : ∀ r ∈ PV.ranks, HoldsVec (tausParams PV.col b) r.col taus (st r).tau) {avail' mb' nb' : Nat} (ha' : 0 < avail') (hmb' : 0 < mb') (hnb' : 0 < nb')
    (junk' : Nat → Elems K) :
    ∃ C' : Elems K, btReductionToBand avail' junk' n m mb' nb' b V taus C = some C' ∧
      AlwaysEnds (Conf.init (fun r => if r ∈ PV.ranks then DistBt.program n PV.row.tile b (avail r) (junk r) (PV.on r) (PC.on r)
        ((tausParams PV.col b).onRank r.col).dist else []) st) fun fin => ∀ r ∈ PV.ranks, HoldsElems PC r C' (fin r).c := by
  obtain ⟨C', h1, h2, _⟩ := C45_bt_reduction_to_band (n := n) (ncols := m) (b := b) ha' hmb' hnb' junk' V taus C
  obtain ⟨D, m1, k, f, d1, d2, d3⟩ := C61_bt_reduction_to_band_distributed hV hrow hcol hgrid hn hm ha junk V C taus hv hc ht
  refine ⟨C', h1, k, f, d1, fun r h => ?_, d3⟩
  obtain ⟨row, cc⟩ := PC
  dsimp only at hrow hcol hgrid hm
  subst hrow
  obtain ⟨mb, hmb⟩ : ∃ mb : Nat, PV.row.tile = mb := ⟨PV.row.tile.toNat, by have := hV.row.tile_pos; omega⟩
  obtain ⟨nbc, hnbc⟩ : ∃ nbc : Nat, cc.tile = nbc := ⟨cc.tile.toNat, by have := hcol.tile_pos; omega⟩
  have a1 : Ax PV.row n mb := ⟨hV.row, hn, hmb⟩
  have a3 : Ax cc m nbc := ⟨hcol, hm, hnbc⟩
  have hrk : r ∈ (⟨PV.row, cc⟩ : Params2).ranks := by
    rw [Params2.mem_ranks] at h ⊢
    intro c
    cases c
    · exact h .Row
    · have := h .Col
      exact ⟨this.1, by show _ < cc.grid; rw [hgrid]; exact this.2⟩
  refine WinAt.holds (P := ⟨PV.row, cc⟩) a1 a3 hrk ((WinAt.of_holds (P := ⟨PV.row, cc⟩) a1 a3 hrk (d2 r h).1).congr a1 a3 hrk fun x hx y hy => ?_)
  have e := congrFun (congrFun (m1.trans h2.symm) ⟨x, hx⟩) ⟨y, hy⟩
  exact e

end

/-- C61.  All members of each row and column communicator perform the same sequence of collectives. -/
theorem C61_same_collectives (hrow : PC.row = PV.row) (mb : Nat) (avail : Coord2 → Nat) (junk : Coord2 → Int → Int → Blk K) :
    SameCollectives PV.ranks fun r => DistBt.program n mb b (avail r) (junk r) (PV.on r) (PC.on r) ((tausParams PV.col b).onRank r.col).dist := by
  obtain ⟨row, cc⟩ := PC
  dsimp only at hrow
  subst hrow
  exact DistBt.program_sigs avail junk _ cc

/- Non-vacuity: order 5, band width 2 (two reflectors, in two tiles), tiles of 2 x 2 on a 2 x 3 grid with source rank (1, 2); `C` with 4 columns in tiles of 3; the result is not `C`. -/
section example_
private def exPV : Params2 := ⟨⟨5, 2, 2, 2, 0, 1, 0⟩, ⟨5, 2, 2, 3, 0, 2, 0⟩⟩
private def exPC : Params2 := ⟨⟨5, 2, 2, 2, 0, 1, 0⟩, ⟨4, 3, 3, 3, 0, 1, 0⟩⟩
private def exV : Elems ℚ := fun x j => x + 10 * j
private def exC : Elems ℚ := fun x y => x * y + 1
private def exT : Nat → ℚ := fun j => j + 1

private def exLoc (P : Params2) (M : Elems ℚ) (r : Coord2) : Coord2 → Blk ℚ := fun l =>
  ⟨P.row.tileSizes ((P.at' .Row r).dist.global_tile_from_local_tile l.row).toNat, P.col.tileSizes ((P.at' .Col r).dist.global_tile_from_local_tile l.col).toNat,
    fun x y => M (((P.at' .Row r).dist.global_tile_from_local_tile l.row).toNat * P.row.tile.toNat + x)
      (((P.at' .Col r).dist.global_tile_from_local_tile l.col).toNat * P.col.tile.toNat + y)⟩

private def exTau (p : Params) (v : Nat → ℚ) (q : Int) : Int → Blk ℚ := fun l =>
  ⟨p.tileSizes ((p.onRank q).dist.global_tile_from_local_tile l).toNat, 1,
    fun x _ => v (((p.onRank q).dist.global_tile_from_local_tile l).toNat * p.tile.toNat + x)⟩

private theorem exLoc_holds {P : Params2} (h1 : Plain P.row) (h2 : Plain P.col) {r : Coord2} (hr : r ∈ P.ranks) (M : Elems ℚ) : HoldsElems P r M (exLoc P M r) := by
  intro i _ j _ o1 o2
  have a1 : Plain (P.at' .Row r) := Params2.plain (c := .Row) h1 hr
  have a2 : Plain (P.at' .Col r) := Params2.plain (c := .Col) h2 hr
  have e1 : (P.at' .Row r).dist.global_tile_from_local_tile ((P.at' .Row r).dist.local_tile_from_global_tile i) = i := a1.gl_lc (by omega) o1
  have e2 : (P.at' .Col r).dist.global_tile_from_local_tile ((P.at' .Col r).dist.local_tile_from_global_tile j) = j := a2.gl_lc (by omega) o2
  unfold exLoc
  dsimp only
  rw [e1, e2, Int.toNat_natCast, Int.toNat_natCast]
  exact ⟨rfl, rfl, fun _ _ _ _ => rfl⟩

private theorem exTau_holds {p : Params} (h : Plain p) {q : Int} (h0 : 0 ≤ q) (h1 : q < p.grid) (v : Nat → ℚ) : HoldsVec p q v (exTau p v q) := by
  intro i _ o
  have a : Plain (p.onRank q) := h.onRank h0 h1
  have e : (p.onRank q).dist.global_tile_from_local_tile ((p.onRank q).dist.local_tile_from_global_tile i) = i := a.gl_lc (by omega) o
  unfold exTau
  dsimp only
  rw [e, Int.toNat_natCast]
  exact ⟨rfl, rfl, fun _ _ => rfl⟩

private def exSt (r : Coord2) : DBtSt ℚ :=
  ⟨exLoc exPC exC r, exLoc exPV exV r, exTau (tausParams exPV.col 2) exT r.col, fun _ => none, fun _ => none, fun _ => none, fun _ => none⟩

example : ∃ C' : Elems ℚ, C' 2 0 ≠ exC 2 0 ∧
    AlwaysEnds (Conf.init (fun r => if r ∈ exPV.ranks then DistBt.program (5 : Nat) exPV.row.tile (2 : Nat) 3 (fun _ _ => exLoc exPV exV r ⟨0, 0⟩) (exPV.on r) (exPC.on r)
        ((tausParams exPV.col 2).onRank r.col).dist else []) exSt) fun fin =>
          ∀ r ∈ exPV.ranks, HoldsElems exPC r C' (fin r).c ∧ HoldsElems exPV r exV (fin r).v := by
  obtain ⟨C', h1, h2⟩ := C61_bt_reduction_to_band_distributed (PV := exPV) (PC := exPC) (n := 5) (m := 4) (b := 2) (by decide) rfl (by decide) rfl rfl rfl (avail := fun _ => 3)
    (fun _ => by omega) (fun r _ _ => exLoc exPV exV r ⟨0, 0⟩) exV exC exT (st := exSt)
    (fun r h => exLoc_holds (by decide) (by decide) h _) (fun r h => exLoc_holds (P := exPC) (by decide) (by decide) h _)
    (fun r h => exTau_holds (p := tausParams exPV.col 2) (by decide) (Params2.mem_ranks.1 h .Col).1 (Params2.mem_ranks.1 h .Col).2 _)
  refine ⟨C', ?_, h2⟩
  have := congrFun (congrFun h1 ⟨2, by omega⟩) ⟨0, by omega⟩
  have e : toM 5 4 C' ⟨2, by omega⟩ ⟨0, by omega⟩ = C' 2 0 := rfl
  rw [e] at this
  rw [this]
  simp [reflectorProd, reflector, storedRefl, List.range_succ, Matrix.mul_apply, Fin.sum_univ_succ, toM, exC, exV, exT,
    Matrix.vecMulVec_apply, Matrix.one_apply]
  norm_num
end example_

end DLAF
