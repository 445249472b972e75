import Verif.Spec.DistMerge
import Verif.Lemmas.SpmdEmb
import Verif.Lemmas.DistMergeWin
import Verif.Lemmas.DistMergeIdx
import Verif.Lemmas.DistMergeMath
import Verif.Props.DistRank1
import Verif.Props.DistMultEvecs
/- The steps 2 to 4 of the distributed merge: the run. -/
namespace DLAF
namespace DistMerge
open DLAF.C34 DLAF.C67

theorem embMul_ok (j : DistR1.Msg → Blk ℝ) : (embMul j).Ok := ⟨fun _ _ => rfl, fun _ _ _ => rfl, fun _ => rfl, fun _ => rfl⟩
theorem embR1_ok (j : Blk ℝ → DistR1.Msg) : (embR1 j).Ok := ⟨fun _ _ => rfl, fun _ _ _ => rfl, fun _ => rfl, fun _ => rfl⟩

/-- The sub-problem. -/
abbrev subP (P : Params2) (off n : Nat) : Params2 := P.sub ⟨off, off⟩ ⟨n, n⟩

section
variable {P : Params2} {M : MgPar} {nb ib n1 n2 : Nat} (h : MergeIn P M nb ib n1 n2)
include h

theorem MergeIn.row0 {r : Coord2} (hr : r ∈ P.ranks) : row0 (P.on r) ib = winBase P.row (ib * nb) r.row := by
  obtain ⟨r0, r1⟩ : 0 ≤ r.row ∧ r.row < P.row.grid := Params2.mem_ranks.1 hr .Row
  rw [← winBase_eq h.square.row h.tile ib r0 r1]
  unfold DistMerge.row0
  have e : (P.on r).row.tileSize = nb := h.tile
  rw [e]
  rfl
theorem MergeIn.col0 {r : Coord2} (hr : r ∈ P.ranks) : col0 (P.on r) ib = winBase P.col (ib * nb) r.col := by
  have ht : P.col.tile = nb := h.square.tile.symm.trans h.tile
  obtain ⟨r0, r1⟩ : 0 ≤ r.col ∧ r.col < P.col.grid := Params2.mem_ranks.1 hr .Col
  rw [← winBase_eq h.square.col ht ib r0 r1]
  unfold DistMerge.col0
  have e : (P.on r).col.tileSize = nb := ht
  rw [e]
  rfl

theorem MergeIn.win {r : Coord2} (hr : r ∈ P.ranks) {x y : Nat} (ox : P.row.owner x = r.row) (oy : P.col.owner y = r.col) :
    inWin (P.on r) ((subP P (ib * nb) (n1 + n2)).on r) ib (P.row.localPos x) (P.col.localPos y) ↔
      (ib * nb ≤ x ∧ x < ib * nb + (n1 + n2)) ∧ (ib * nb ≤ y ∧ y < ib * nb + (n1 + n2)) := by
  obtain ⟨r0, r1⟩ : 0 ≤ r.row ∧ r.row < P.row.grid := Params2.mem_ranks.1 hr .Row
  obtain ⟨c0, c1⟩ : 0 ≤ r.col ∧ r.col < P.col.grid := Params2.mem_ranks.1 hr .Col
  unfold inWin
  rw [h.row0 hr, h.col0 hr]
  have e1 : ((subP P (ib * nb) (n1 + n2)).on r).row.localSize = (localColumns (P.row.sub (ib * nb : Nat) (n1 + n2 : Nat)) r.row : Nat) := by
    have hv := (h.square.row.valid.sub (o := (ib * nb : Nat)) (n := (n1 + n2 : Nat)) (by omega) (by omega)).onRank r0 r1
    have := hv.wf.localSize_nonneg
    unfold localColumns
    rw [Int.toNat_of_nonneg this]
    rfl
  have e2 : ((subP P (ib * nb) (n1 + n2)).on r).col.localSize = (localColumns (P.col.sub (ib * nb : Nat) (n1 + n2 : Nat)) r.col : Nat) := by
    have hv := (h.square.col.valid.sub (o := (ib * nb : Nat)) (n := (n1 + n2 : Nat)) (by omega) (by omega)).onRank c0 c1
    have := hv.wf.localSize_nonneg
    unfold localColumns
    rw [Int.toNat_of_nonneg this]
    rfl
  rw [e1, e2, win_iff h.square.row.valid r0 r1 ox, win_iff h.square.col.valid c0 c1 oy]

/-- The partition on every process. -/
theorem MergeIn.parts : ∃ R : Int → DistPart.Result, ∀ c, 0 ≤ c → c < P.col.grid →
    DistPart.stablePartition ((subP P (ib * nb) (n1 + n2)).col.onRank c).dist M.types M.d M.perm M.out1 M.out2 = some (R c) ∧
      R c = { R 0 with k_lc := (R c).k_lc, i5_lc := (R c).i5_lc } := by
  have hv := h.square.col.valid.sub (o := (ib * nb : Nat)) (n := (n1 + n2 : Nat)) (by omega) (by omega)
  have hg : 0 < P.col.grid := h.square.col.valid.2.2.2.2.1
  have h0 := hv.onRank (r := 0) (by omega) hg
  obtain ⟨R0, hR0⟩ := C67_defined (p := (P.col.sub (ib * nb : Nat) (n1 + n2 : Nat)).onRank 0) h0 rfl h.types_len h.d_len h.out1_len h.out2_len h.perm
  have key : ∀ c : Int, ∃ a b, 0 ≤ c → c < P.col.grid →
      DistPart.stablePartition ((P.col.sub (ib * nb : Nat) (n1 + n2 : Nat)).onRank c).dist M.types M.d M.perm M.out1 M.out2 = some { R0 with k_lc := a, i5_lc := b } := by
    intro c
    by_cases hc : 0 ≤ c ∧ c < P.col.grid
    · obtain ⟨a, b, e⟩ := C67_rank_independent h0 rfl h.types_len h.d_len h.out1_len h.out2_len h.perm hR0 (q := c) hc.1 hc.2
      exact ⟨a, b, fun _ _ => e⟩
    · exact ⟨0, [], fun u v => absurd ⟨u, v⟩ hc⟩
  choose a b hab using key
  refine ⟨fun c => { R0 with k_lc := a c, i5_lc := b c }, fun c c0 c1 => ⟨hab c c0 c1, rfl⟩⟩

end
end DistMerge
end DLAF
