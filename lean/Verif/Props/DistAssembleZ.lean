import Mathlib.Tactic.NormNum
import Verif.Lemmas.AssembleZ
import Verif.Lemmas.RefTiles
/-!
# C70: the rank-one vector of the distributed merge

For every grid, source process, tile size, every two adjacent sub-problems, every sign of `rho` and every schedule of the processes.
-/
namespace DLAF
open DistZ

section
variable {P : Params2} {n nb : Nat} (hr : Ax P.row n nb) (hc : Ax P.col n nb) {ib isr ie : Nat} {A : Nat → Nat → ℝ} {rho : ℝ} {st0 : Coord2 → DZSt}
include hr hc

/-- C70: no schedule aborts or deadlocks, and in the end every process has all of the vector of the two sub-problems `[ib, isr)` and `[isr, ie)` (tiles): the last row of the
eigenvectors of the first one, negated if `rho < 0`, and the first row of those of the second one, divided by `√2`; nothing else changes. -/
theorem C70_assemble (h0 : ib < isr) (h1 : isr < ie) (h2 : (ie - 1) * nb < n) (hA : ∀ r ∈ P.ranks, HoldsLoc P r (st0 r).e0 A) (hrho : ∀ r ∈ P.ranks, (st0 r).rho = rho) :
    AlwaysEnds (Conf.init (fun r => if r ∈ P.ranks then assembleZDist (P.on r) isr ib ie else []) st0) fun st => ∀ r ∈ P.ranks,
      (st r).e0 = (st0 r).e0 ∧ (st r).rho = rho ∧
      (∀ e, ib * nb ≤ e → e < isr * nb → (st r).z e = (if rho < 0 then -A (isr * nb - 1) e else A (isr * nb - 1) e) / Real.sqrt 2) ∧
      (∀ e, isr * nb ≤ e → e < ie * nb → e < n → (st r).z e = A (isr * nb) e / Real.sqrt 2) ∧
      ∀ e, e < ib * nb ∨ ie * nb ≤ e ∨ n ≤ e → (st r).z e = (st0 r).z e := by
  have hp := hr.nb_pos
  have g1 : isr * nb < n := by
    have := Nat.mul_le_mul_right nb (show isr ≤ ie - 1 by omega)
    omega
  obtain ⟨c', u1, -, u3⟩ := assembleZ_runs hr hc (ib := ib) (isr := isr) (ie := ie) (by omega) h2 (by omega) g1 hA hrho
    (c := ⟨st0, fun _ _ => 0, fun _ _ _ => none⟩) ⟨fun _ _ _ _ _ _ _ => rfl, fun _ _ _ _ _ _ _ => rfl⟩ fun _ _ => rfl
  refine u1.alwaysEnds fun r hrr => ?_
  rw [u3 r hrr]
  have hT : (isr - 1) * nb + (tileN nb n (isr - 1) - 1) = isr * nb - 1 := by
    unfold tileN
    have : (isr - 1) * nb = isr * nb - nb := by rw [Nat.sub_mul, Nat.one_mul]
    have := Nat.le_mul_of_pos_left nb (show 0 < isr by omega)
    omega
  refine ⟨rfl, hrho r hrr, fun e a b => ?_, fun e a b c => ?_, fun e a => ?_⟩
  · show assembleZ nb n ib isr ie rho A (st0 r).z e = _
    have k1 := (Nat.le_div_iff_mul_le hp).2 a
    have k2 := (Nat.div_lt_iff_lt_mul hp).2 b
    unfold assembleZ
    rw [if_pos ⟨k1, by omega, by omega⟩, if_pos k2, hT]
    split
    · rw [neg_one_mul]
    · rw [one_mul]
  · show assembleZ nb n ib isr ie rho A (st0 r).z e = _
    have k1 := (Nat.le_div_iff_mul_le hp).2 a
    have k2 := (Nat.div_lt_iff_lt_mul hp).2 b
    unfold assembleZ
    rw [if_pos ⟨by omega, k2, c⟩, if_neg (by omega), Nat.add_zero]
  · show assembleZ nb n ib isr ie rho A (st0 r).z e = _
    unfold assembleZ
    rw [if_neg]
    rintro ⟨x, y, w⟩
    have k1 := (Nat.le_div_iff_mul_le hp).1 x
    have k2 := (Nat.div_lt_iff_lt_mul hp).1 y
    omega

/-- C70: every process ends with the vector of the local merge (C53) of the same eigenvectors. -/
theorem C70_as_local (h0 : ib < isr) (h1 : isr < ie) (h2 : (ie - 1) * nb < n) (hA : ∀ r ∈ P.ranks, HoldsLoc P r (st0 r).e0 A) (hrho : ∀ r ∈ P.ranks, (st0 r).rho = rho) :
    AlwaysEnds (Conf.init (fun r => if r ∈ P.ranks then assembleZDist (P.on r) isr ib ie else []) st0) fun st => ∀ r ∈ P.ranks,
      (st r).z = assembleZ nb n ib isr ie rho A (st0 r).z := by
  have g1 : isr * nb < n := by
    have := Nat.mul_le_mul_right nb (show isr ≤ ie - 1 by omega)
    omega
  obtain ⟨c', u1, -, u3⟩ := assembleZ_runs hr hc (ib := ib) (isr := isr) (ie := ie) (by omega) h2 (by omega) g1 hA hrho
    (c := ⟨st0, fun _ _ => 0, fun _ _ _ => none⟩) ⟨fun _ _ _ _ _ _ _ => rfl, fun _ _ _ _ _ _ _ => rfl⟩ fun _ _ => rfl
  exact u1.alwaysEnds fun r hrr => by rw [u3 r hrr]; rfl

/-- C70: all processes do the same broadcasts in the same order. -/
theorem C70_same_collectives (h0 : ib < isr) (h1 : isr < ie) (h2 : (ie - 1) * nb < n) : SameCollectives P.ranks fun r => assembleZDist (P.on r) isr ib ie := by
  intro c r hrr s hss _ _
  have key : ∀ r ∈ P.ranks, sigs c (assembleZDist (P.on r) isr ib ie) = (irange ib ie).flatMap fun t =>
      if 1 < P.row.grid * P.col.grid ∧ Chan.full P.col.grid = c then
        [Sig.bcast ((zOwner ⟨P.row.dist, P.col.dist⟩ isr t).row * P.col.grid + (zOwner ⟨P.row.dist, P.col.dist⟩ isr t).col)] else [] := by
    intro r hrr
    unfold assembleZDist
    rw [sigs_flatMap]
    refine List.flatMap_congr fun t ht => ?_
    obtain ⟨t0, t1⟩ := mem_irange.1 ht
    obtain ⟨t, rfl⟩ : ∃ t' : Nat, t = t' := ⟨t.toNat, by omega⟩
    have htn : t * nb < n := by
      have := Nat.mul_le_mul_right nb (show t ≤ ie - 1 by omega)
      omega
    have hon : isr * nb < n := by
      have := Nat.mul_le_mul_right nb (show isr ≤ ie - 1 by omega)
      omega
    have hmem := owner_mem hr hc htn (by omega) hon r
    unfold zTile
    dsimp only
    have e0 : zOwner (P.on r) isr t = zOwner ⟨P.row.dist, P.col.dist⟩ isr t := rfl
    have e1 : (P.on r).row.grid * (P.on r).col.grid = P.row.grid * P.col.grid := rfl
    have e2 : (P.on r).col.grid = P.col.grid := rfl
    have e3 : (⟨(P.on r).row.rank, (P.on r).col.rank⟩ : Coord2) = r := rfl
    rw [e0, e1, e2, e3]
    by_cases ho : zOwner ⟨P.row.dist, P.col.dist⟩ isr t = r
    · rw [if_pos ho, sigs_append]
      show [] ++ _ = _
      rw [List.nil_append]
      by_cases hg : 1 < P.row.grid * P.col.grid
      · rw [if_pos hg, sigs_bcastSend]
        simp [hg]
      · rw [if_neg hg, if_neg (fun z => hg z.1)]
        rfl
    · rw [if_neg ho, sigs_bcastRecv]
      by_cases hg : 1 < P.row.grid * P.col.grid
      · simp [hg]
      · exact absurd (one_process hg hmem hrr) ho
  rw [key r hrr, key s hss]

end

/- Non-vacuity: six elements in tiles of two on a 2 × 3 grid, the sub-problems of the tiles `[0, 1)` and `[1, 3)`, `rho < 0`. -/
namespace Ex70
def P : Params2 := ⟨⟨6, 2, 2, 2, 0, 1, 0⟩, ⟨6, 2, 2, 3, 0, 2, 0⟩⟩
def A : Nat → Nat → ℝ := fun x y => 10 * x + y + 1

theorem rowAx : Ax P.row 6 2 := ⟨⟨⟨by decide, rfl⟩, rfl⟩, rfl, rfl⟩
theorem colAx : Ax P.col 6 2 := ⟨⟨⟨by decide, rfl⟩, rfl⟩, rfl, rfl⟩

/-- The local part of the matrix. -/
def loc (r : Coord2) : LocE ℝ := fun x y =>
  A ((P.at' .Row r).dist.global_element_from_local_element x).toNat ((P.at' .Col r).dist.global_element_from_local_element y).toNat

theorem loc_holds : ∀ r ∈ P.ranks, HoldsLoc P r (loc r) A := by
  intro r hr x y hx hy ox oy
  obtain ⟨vr, vc⟩ := Params2.at_valid (P := P) (by decide) (by decide) hr
  have a := C03_owned_global_local_global vr (e := x) (by omega) ox
  have b := C03_owned_global_local_global vc (e := y) (by omega) oy
  rw [vr.localPos_here (by omega) ox] at a
  rw [vc.localPos_here (by omega) oy] at b
  have a' : (P.at' .Row r).dist.global_element_from_local_element (P.row.localPos x) = x := a
  have b' : (P.at' .Col r).dist.global_element_from_local_element (P.col.localPos y) = y := b
  unfold loc
  rw [a', b', Int.toNat_natCast, Int.toNat_natCast]

/-- The tiles of `z` come from three different processes. -/
example : P.ranks.length = 6 ∧ (irange 0 3).map (zOwner (P.on ⟨0, 0⟩) 1) = [⟨1, 2⟩, ⟨0, 0⟩, ⟨0, 1⟩] := by decide +kernel

example : AlwaysEnds (Conf.init (fun r => if r ∈ P.ranks then assembleZDist (P.on r) (1 : Nat) (0 : Nat) (3 : Nat) else []) fun r => ⟨loc r, fun _ => 0, -1⟩) fun st =>
    ∀ r ∈ P.ranks, (st r).z 1 = -12 / Real.sqrt 2 ∧ (st r).z 3 = 24 / Real.sqrt 2 := by
  obtain ⟨n, f, hd, hq, hall⟩ := C70_assemble rowAx colAx (ib := 0) (isr := 1) (ie := 3) (A := A) (rho := -1) (st0 := fun r => ⟨loc r, fun _ => 0, -1⟩)
    (by decide) (by decide) (by decide) loc_holds fun _ _ => rfl
  refine ⟨n, f, hd, fun r hr => ?_, hall⟩
  obtain ⟨-, -, h1, h2, -⟩ := hq r hr
  rw [h1 1 (by decide) (by decide), h2 3 (by decide) (by decide) (by decide), if_pos (by norm_num)]
  simp only [A]
  norm_num
end Ex70

end DLAF
