import Verif.Lemmas.DistLeaf
import Verif.Spec.DistLeaf
import Verif.Props.DivConq
import Verif.Lemmas.RefTiles
/-!
# C71: the leaves of the distributed divide & conquer solver

For every grid, source process, tile size and order, and every schedule of the processes.
-/
namespace DLAF
open DistLeaf

section
variable {P : Params2} {n nb : Nat} (hr : Ax P.row n nb) (hc : Ax P.col n nb) {D : DcPar} {junk : Nat → Nat → ℝ} {d e : Nat → ℝ} {st0 : Coord2 → DLSt}
include hr hc

/-- C71: every process ends with the diagonal, and its part of the eigenvectors, of the local algorithm (C53). -/
theorem C71_as_local (hd : ∀ r ∈ P.ranks, (st0 r).d = d) (he : ∀ r ∈ P.ranks, (st0 r).e = e) :
    AlwaysEnds (Conf.init (fun r => if r ∈ P.ranks then distStart D junk (P.on r) nb n else []) st0) fun st => ∀ r ∈ P.ranks,
      (st r).d = ((upto 0 (ceilDivN n nb)).foldl (fun x i => solveLeaf D nb n e i x) ((upto 1 (ceilDivN n nb)).foldl (fun d i => cuppens nb n e i d) d, fun _ _ => 0)).1 ∧
      HoldsLoc P r (st r).q
        ((upto 0 (ceilDivN n nb)).foldl (fun x i => solveLeaf D nb n e i x) ((upto 1 (ceilDivN n nb)).foldl (fun d i => cuppens nb n e i d) d, fun _ _ => 0)).2 := by
  obtain ⟨c', u1, -, u3⟩ := start_runs hr hc (D := D) (junk := junk) (E := e) (dg := d)
    (c := ⟨st0, fun _ _ => 0, fun _ _ _ => none⟩) ⟨fun _ _ _ _ _ _ _ => rfl, fun _ _ _ _ _ _ _ => rfl⟩ hd he
  exact u1.alwaysEnds fun r hrr => ⟨(u3 r hrr).1, (u3 r hrr).2.2⟩

/-- C71: no schedule aborts or deadlocks, and in the end every process holds all the eigenvalues and its part of the eigenvectors of all diagonal blocks of the torn matrix. -/
theorem C71_leaves (hn : 0 < n) (hst : StedcSpec D.stedc) (hd : ∀ r ∈ P.ranks, (st0 r).d = d) (he : ∀ r ∈ P.ranks, (st0 r).e = e) :
    AlwaysEnds (Conf.init (fun r => if r ∈ P.ranks then distStart D junk (P.on r) nb n else []) st0) fun st =>
      ∃ lam Q, LeavesSolved nb n d e lam Q ∧ ∀ r ∈ P.ranks, (st r).d = lam ∧ HoldsLoc P r (st r).q Q := by
  obtain ⟨N, f, hf, hq, hall⟩ := C71_as_local hr hc (D := D) (junk := junk) hd he
  refine ⟨N, f, hf, ⟨_, _, ?_, hq⟩, hall⟩
  have hnb := hr.nb_pos
  obtain ⟨dd, hdd⟩ : ∃ dd, dd = (upto 1 (ceilDivN n nb)).foldl (fun d i => cuppens nb n e i d) d := ⟨_, rfl⟩
  rw [← hdd]
  obtain ⟨-, f2, f3⟩ := leaves_fold (m := n) D hnb e dd (fun _ _ => 0) (ceilDivN n nb) (le_refl _)
  obtain ⟨lf, hlf⟩ : ∃ lf, lf = (upto 0 (ceilDivN n nb)).foldl (fun x i => solveLeaf D nb n e i x) (dd, fun _ _ => 0) := ⟨_, rfl⟩
  rw [← hlf] at f2 f3 ⊢
  refine ⟨f2, fun i hi s hs => ?_⟩
  have hs' : s = tileN nb n i := hs
  subst hs'
  have hpos : 0 < tileN nb n i := by unfold tileN; omega
  have hi' : i < ceilDivN n nb := (hr.lt_nt i).2 hi
  obtain ⟨t1, t2, t3⟩ := hst (tileN nb n i) (shF dd (i * nb)) (shF e (i * nb)) hpos
  obtain ⟨g1, g2⟩ := f3 i hi'
  have hQ : (toM (tileN nb n i) (tileN nb n i) fun x y => lf.2 (i * nb + x) (i * nb + y)) =
      toM (tileN nb n i) (tileN nb n i) (D.stedc (tileN nb n i) (shF dd (i * nb)) (shF e (i * nb))).2 := by
    ext x y
    exact g2 x x.2 y y.2
  refine ⟨fun a b hab hb => ?_, ?_, ?_⟩
  · rw [g1 a (by omega), g1 b hb]
    exact t1 a b hab hb
  · rw [hQ]
    exact t2
  · rw [hQ]
    refine Eq.trans (congrArg (· * _) (triM_congr (d' := shF dd (i * nb)) (e' := shF e (i * nb)) (fun x hx => ?_) (fun _ _ => rfl))) (t3.trans ?_)
    rotate_left
    · congr 1
      ext a b
      unfold diagM
      by_cases hab : a = b
      · subst hab
        simp only [Matrix.diagonal_apply_eq]
        rw [g1 a a.2]
      · simp only [Matrix.diagonal_apply_ne _ hab]
    · -- the torn diagonal
      have hx' : x < nb ∧ i * nb + x < n := by unfold tileN at hx; omega
      have h1 : (i + 1) * nb = i * nb + nb := by rw [Nat.add_mul, Nat.one_mul]
      unfold shF
      rw [hdd, cuppens_all hnb hn d e (i := i) (by omega) (by omega) hx'.2]
      unfold tornDiag cutD
      have c1 : ((i * nb + x) % nb = 0 ∧ 0 < i * nb + x) ↔ (i * nb + x = i * nb ∧ 0 < i) := by
        rw [Nat.add_comm, Nat.add_mul_mod_self_right, Nat.mod_eq_of_lt hx'.1]
        constructor
        · rintro ⟨a, b⟩
          refine ⟨by omega, Nat.pos_of_ne_zero fun h => ?_⟩
          rw [h, Nat.zero_mul] at b
          omega
        · rintro ⟨a, b⟩
          have := Nat.le_mul_of_pos_left nb b
          exact ⟨by omega, by omega⟩
      have c2 : ((i * nb + x + 1) % nb = 0 ∧ i * nb + x + 1 < n) ↔ (i * nb + x + 1 = (i + 1) * nb ∧ i * nb + x + 1 < n) := by
        refine and_congr_left fun _ => ?_
        rw [h1, show i * nb + x + 1 = x + 1 + i * nb by omega, Nat.add_mul_mod_self_right]
        constructor
        · intro a
          have := Nat.le_of_dvd (by omega) (Nat.dvd_of_mod_eq_zero a)
          omega
        · intro a
          rw [show x + 1 = nb by omega, Nat.mod_self]
      rw [if_congr c1 rfl rfl, if_congr c2 rfl rfl]

/-- C71: all processes do the same broadcasts in the same order. -/
theorem C71_same_collectives : SameCollectives P.ranks fun r => distStart D junk (P.on r) nb n := by
  intro c r hrr s hss _ _
  have hp := hr.nb_pos
  have hN : P.row.dist.nrTiles = ((ceilDivN n nb : Nat) : Int) := hr.nt
  have key : ∀ r ∈ P.ranks, sigs c (distStart D junk (P.on r) nb n) = (irange 0 P.row.dist.nrTiles).flatMap fun t =>
      if 1 < P.row.grid * P.col.grid ∧ Chan.full P.col.grid = c then
        [Sig.bcast (P.row.dist.rank_global_tile t * P.col.grid + P.col.dist.rank_global_tile t)] else [] := by
    intro r hrr
    unfold distStart
    rw [sigs_append, sigs_append]
    show [] ++ [] ++ _ = _
    rw [List.nil_append, List.nil_append]
    unfold solveDistLeaf
    rw [sigs_flatMap]
    refine List.flatMap_congr fun t ht => ?_
    obtain ⟨t0, t1⟩ := mem_irange.1 ht
    have t1 : t < P.row.dist.nrTiles := t1
    obtain ⟨t, rfl⟩ : ∃ t' : Nat, t = t' := ⟨t.toNat, by omega⟩
    have htn : t * nb < n := (hr.lt_nt t).1 (by rw [hN] at t1; exact_mod_cast t1)
    have hmem : (⟨P.row.dist.rank_global_tile t, P.col.dist.rank_global_tile t⟩ : Coord2) ∈ P.ranks := by
      refine Params2.mem_ranks.2 fun co => ?_
      cases co
      · have := (C01_element_owner hr.plain.valid (e := ((t * nb : Nat) : Int)) (by omega) (by rw [hr.size]; omega)).1
        rw [← DistZ.Ax.owner_tile hr, Nat.mul_div_cancel _ hp] at this
        exact this
      · have := (C01_element_owner hc.plain.valid (e := ((t * nb : Nat) : Int)) (by omega) (by rw [hc.size]; omega)).1
        rw [← DistZ.Ax.owner_tile hc, Nat.mul_div_cancel _ hp] at this
        exact this
    unfold leafTile
    dsimp only
    have e0r : (P.on r).row.rank_global_tile t = P.row.dist.rank_global_tile t := rfl
    have e0c : (P.on r).col.rank_global_tile t = P.col.dist.rank_global_tile t := rfl
    have e1 : (P.on r).row.grid * (P.on r).col.grid = P.row.grid * P.col.grid := rfl
    have e2 : (P.on r).col.grid = P.col.grid := rfl
    have e3 : (⟨(P.on r).row.rank, (P.on r).col.rank⟩ : Coord2) = r := rfl
    rw [e0r, e0c, e1, e2, e3]
    by_cases ho : (⟨P.row.dist.rank_global_tile t, P.col.dist.rank_global_tile t⟩ : Coord2) = r
    · rw [if_pos ho, sigs_append]
      show [] ++ _ = _
      rw [List.nil_append]
      by_cases hg : 1 < P.row.grid * P.col.grid
      · rw [if_pos hg, sigs_bcastSend]
        simp [hg]
      · rw [if_neg hg, if_neg (fun z => hg z.1)]
        rfl
    · rw [if_neg ho, sigs_bcastRecv]
      by_cases hg : 1 < P.row.grid * P.col.grid
      · simp [hg]
      · exact absurd (DistZ.one_process hg hmem hrr) ho
  rw [key r hrr, key s hss]

end

/- Non-vacuity: order 5 in tiles of two on a 2 × 3 grid, LAPACK's contract met by `stedcStd` (C53_stedc), any contents of the work space. -/
namespace Ex71
def P : Params2 := ⟨⟨5, 2, 2, 2, 0, 1, 0⟩, ⟨5, 2, 2, 3, 0, 2, 0⟩⟩
theorem rowAx : Ax P.row 5 2 := ⟨⟨⟨by decide, rfl⟩, rfl⟩, rfl, rfl⟩
theorem colAx : Ax P.col 5 2 := ⟨⟨⟨by decide, rfl⟩, rfl⟩, rfl, rfl⟩

/-- The leaves are computed by three different processes. -/
example : (irange 0 3).map (fun t => (⟨P.row.dist.rank_global_tile t, P.col.dist.rank_global_tile t⟩ : Coord2)) = [⟨1, 2⟩, ⟨0, 0⟩, ⟨1, 1⟩] := by decide +kernel

example (q : Coord2 → LocE ℝ) : AlwaysEnds (Conf.init (fun r => if r ∈ P.ranks then distStart (dcExample 0) (fun _ _ => 7) (P.on r) 2 5 else [])
    fun r => ⟨fun x => x, fun _ => -1, q r⟩) fun st =>
      ∃ lam Q, LeavesSolved 2 5 (fun x => x) (fun _ => -1) lam Q ∧ ∀ r ∈ P.ranks, (st r).d = lam ∧ HoldsLoc P r (st r).q Q :=
  C71_leaves rowAx colAx (by decide) C53_stedc (fun _ _ => rfl) fun _ _ => rfl

/-- The last leaf has order one: its eigenvalue is the torn diagonal element. -/
example {lam : Nat → ℝ} {Q : Nat → Nat → ℝ} (h : LeavesSolved 2 5 (fun x => x) (fun _ => -1) lam Q) : lam 4 = 3 := by
  obtain ⟨-, h2, h3⟩ := h.2 2 (by decide) 1 (by decide)
  have a := congrFun (congrFun h2 0) 0
  have b := congrFun (congrFun h3 0) 0
  simp [Matrix.mul_apply, toM, triM, diagM, tornDiag] at a b
  have hq : Q 4 4 ≠ 0 := by
    intro h
    rw [h] at a
    norm_num at a
  exact mul_left_cancel₀ hq (by linarith)
end Ex71

end DLAF
