import Verif.Lemmas.DcLeaf
/- A run of the divide and conquer eigensolver on a matrix of order two with small entries (finding F26). -/
namespace DLAF
open scoped Classical

theorem small_step1 {P : DcPar} {rho a : ℝ} {s : DcSt} (ha : 0 < a) (hr : |rho| = a) (hle : a ≤ 4 * P.eps)
    (hd0 : s.d0 0 = -a) (hd1 : s.d0 1 = -a) (h0 : s.e0 0 0 ^ 2 = 1) (h1 : s.e0 1 1 ^ 2 = 1) :
    ∃ s1, dcStep1 P 1 2 0 1 2 rho s = some (s1, [0, 1]) ∧ s1.d0 0 = -a ∧ s1.d0 1 = -a ∧ s1.z0 1 ^ 2 = 1 / 2 ∧ s1.c 0 = .Deflated ∧
      s1.c 1 = .LowerHalf := by
  have p1 : probN 1 2 0 2 = 2 := by decide
  have p2 : probN 1 2 0 1 = 1 := by decide
  have w : ∀ f : Nat → ℝ, winL f (0 * 1) 2 = [f 0, f 1] := fun f => by simp [winL, List.range_succ]
  have w' : ∀ f : Nat → Nat, winL f (0 * 1) 2 = [f 0, f 1] := fun f => by simp [winL, List.range_succ]
  have hz0 : assembleZ 1 2 0 1 2 rho s.e0 s.z0 0 ^ 2 = 1 / 2 := by
    simp only [assembleZ, tileN]
    norm_num
    split <;> simp [div_pow, h0]
  have hz1 : assembleZ 1 2 0 1 2 rho s.e0 s.z0 1 ^ 2 = 1 / 2 := by
    simp only [assembleZ, tileN]
    norm_num
    simp [div_pow, h1]
  have hj : joinIdx 1 2 0 1 2 s.i1 0 = 0 ∧ joinIdx 1 2 0 1 2 s.i1 1 = 1 := by
    simp [joinIdx, addIdx, initIdx, p2]
  unfold dcStep1
  dsimp only
  rw [p1, p2, w, w, w', hj.1, hj.2, hd0, hd1]
  have hsort : sortIndex 1 [-a, -a] [0, 1] = some [0, 1] := by
    simp [sortIndex, stdMerge]
  have htol : |2 * |rho| * shF (assembleZ 1 2 0 1 2 rho s.e0 s.z0) (0 * 1) 0| ≤
      dcTol P.eps [-a, -a] [assembleZ 1 2 0 1 2 rho s.e0 s.z0 0, assembleZ 1 2 0 1 2 rho s.e0 s.z0 1] := by
    have hm := (maxAbs_nonneg [assembleZ 1 2 0 1 2 rho s.e0 s.z0 0, assembleZ 1 2 0 1 2 rho s.e0 s.z0 1]).2 _ List.mem_cons_self
    have : shF (assembleZ 1 2 0 1 2 rho s.e0 s.z0) (0 * 1) 0 = assembleZ 1 2 0 1 2 rho s.e0 s.z0 0 := by simp [shF]
    rw [this]
    unfold dcTol
    rw [abs_mul, hr, abs_of_pos (show 0 < 2 * a by linarith)]
    have h4 := abs_nonneg (assembleZ 1 2 0 1 2 rho s.e0 s.z0 0)
    revert hm h4
    generalize |assembleZ 1 2 0 1 2 rho s.e0 s.z0 0| = z
    generalize maxAbs [assembleZ 1 2 0 1 2 rho s.e0 s.z0 0, assembleZ 1 2 0 1 2 rho s.e0 s.z0 1] = M
    intro hm h4
    have h3 : M ≤ max (maxAbs [-a, -a]) M := le_max_right _ _
    have h5 : 2 * a * z ≤ 8 * P.eps * z := mul_le_mul_of_nonneg_right (by linarith) h4
    have h6 : 8 * P.eps * z ≤ 8 * P.eps * max (maxAbs [-a, -a]) M := mul_le_mul_of_nonneg_left (by linarith) (by linarith)
    linarith
  have hdef : ∀ (c : Nat → ColType) (z : Nat → ℝ) (tol : ℝ), |2 * |rho| * z 0| ≤ tol →
      applyDeflation (2 * |rho|) tol 2 [0, 1] (shF s.d0 (0 * 1)) z c = some ⟨1, shF s.d0 (0 * 1), z, setF c 0 .Deflated, []⟩ := by
    intro c z tol h
    have hu : upto 1 2 = [1] := by decide
    unfold applyDeflation
    rw [if_pos (by decide), hu]
    simp only [List.foldl_cons, List.foldl_nil, deflStep, List.getD_cons_zero]
    rw [if_pos h]
  simp only [Option.bind_eq_bind]
  rw [hsort, Option.bind_some, hdef _ _ _ htol, Option.bind_some]
  refine ⟨_, rfl, ?_, ?_, ?_, ?_, ?_⟩
  · simp [putF, shF, hd0]
  · simp [putF, shF, hd1]
  · simp only [putF, shF]
    norm_num
    rw [hz1]
  · simp [putF, setF]
  · simp [putF, setF, shF, initTypes]

theorem small_step2 {P : DcPar} (h4 : Laed4Spec P.laed4) (hav : 0 < P.avail) {rho a : ℝ} {s : DcSt} (hr : |rho| = a)
    (hd0 : s.d0 0 = -a) (hd1 : s.d0 1 = -a) (hz : s.z0 1 ^ 2 = 1 / 2) (hc0 : s.c 0 = .Deflated) (hc1 : s.c 1 = .LowerHalf) :
    ∃ s2 p, dcStep2 P 1 2 0 2 rho s [0, 1] = some (s2, p) ∧ p.k = 1 ∧ s2.d0 0 = 0 ∧ s2.d0 1 = -a := by
  have p1 : probN 1 2 0 2 = 2 := by decide
  have w : ∀ {α : Type} (f : Nat → α), winL f (0 * 1) 2 = [f 0, f 1] := fun f => by simp [winL, List.range_succ]
  have hp : ∀ x y u v, stablePartition [ColType.Deflated, .LowerHalf] [-a, -a] [0, 1] [x, y] [u, v] = some ⟨1, [0, 0, 1], [1, 0], [1, 0]⟩ := by
    intro x y u v
    simp [stablePartition, typeCounts, ev_sort_order, partialSum, partitionLoop, insertLoop, setAt, binLoop, copyFrom]
  unfold dcStep2
  dsimp only
  rw [p1]
  simp only [w, hc0, hc1, hd0, hd1, Option.bind_eq_bind]
  rw [hp, Option.bind_some]
  dsimp only
  have e1 : ∀ (x y : ℝ), applyIndex [1, 0] [x, y] = some [y, x] := fun x y => by simp [applyIndex, mapOpt]
  have e2 : invertIndex [1, 0] [0, 1] = some [1, 0] := by decide
  have e3 : applyIndex [1, 0] [1, 0] = some [0, 1] := by decide
  rw [e1, Option.bind_some, e1, Option.bind_some, e2, Option.bind_some, e3, Option.bind_some]
  unfold solveRank1
  dsimp only
  rw [if_neg (by omega), Option.bind_some]
  refine ⟨_, _, rfl, rfl, ?_, ?_⟩
  all_goals
    dsimp only
    unfold r1Run
    dsimp only
    rw [if_pos (by decide)]
    have hw : r1Workers P.avail (2 - 0) = 1 := by
      have : ceilDivN (2 - 0) 2 = 1 := by decide
      unfold r1Workers clampN
      rw [this, if_neg (by omega), if_neg (by omega)]
    rw [hw]
    have hu : upto 0 1 = [0] := by decide
    have hwr : ∀ g : R1Cfg, g.k = 1 → r1ActsLaed g 1 0 = [r1Laed g 0] := by
      intro g hg
      unfold r1ActsLaed
      rw [hg, if_neg (by decide), show workerRange 1 1 0 = [0] by decide]
      rfl
    unfold Bulk.runAll Bulk.runAll
    rw [hwr _ rfl]
    simp only [Bulk.runList, List.foldl_cons, List.foldl_nil, r1Laed, r1Init, putF]
  · have := (h4.one (shF (putL s.d1 (0 * 1) [-a, -a]) (0 * 1)) (shF (putL s.z1 (0 * 1) [s.z0 1, s.z0 0]) (0 * 1)) (2 * |rho|)).1
    rw [if_pos (by decide)]
    show (P.laed4 1 0 _ _ _).1 = 0
    rw [this]
    simp [shF, putL, hz, hr]
    ring
  · simp [shF, putL]

theorem small_run {P : DcPar} (h4 : Laed4Spec P.laed4) (hst : StedcSpec P.stedc) (hav : 0 < P.avail) (w : DcSt) {a : ℝ}
    (ha : 0 < a) (hle : a ≤ 4 * P.eps) {lam : Nat → ℝ} {Z : Nat → Nat → ℝ}
    (h : dcSolve P w 2 1 (fun _ => 0) (fun _ => a) = some (lam, Z)) : lam 0 = -a ∧ lam 1 = 0 := by
  have hst1 : ∀ d e : Nat → ℝ, (P.stedc 1 d e).1 0 = d 0 ∧ (P.stedc 1 d e).2 0 0 ^ 2 = 1 := by
    intro d e
    obtain ⟨-, t2, t3⟩ := hst 1 d e (by omega)
    have u2 := congrFun (congrFun t2 0) 0
    have u3 := congrFun (congrFun t3 0) 0
    rw [Matrix.mul_apply] at u2 u3
    simp [toM, triM, diagM] at u2 u3
    have u4 : (P.stedc 1 d e).2 0 0 ^ 2 = 1 := by rw [sq]; exact u2
    refine ⟨?_, u4⟩
    have hz : (P.stedc 1 d e).2 0 0 ≠ 0 := fun hz => by rw [hz] at u2; simp at u2
    have : ((P.stedc 1 d e).1 0 - d 0) * (P.stedc 1 d e).2 0 0 = 0 := by linarith
    rcases mul_eq_zero.1 this with h | h
    · linarith
    · exact absurd h hz
  have hc : ceilDivN 2 1 = 2 := by decide
  have hsp : splitIv 0 2 = [(0, 1, 2)] := by
    rw [splitIv, if_neg (by omega), show ceilDivN (0 + 2) 2 = 1 by decide, splitIv, if_pos (by omega), splitIv, if_pos (by omega)]
    rfl
  have hof : offdiag 1 2 (fun _ => a) 1 = a := rfl
  unfold dcSolve at h
  dsimp only at h
  rw [if_neg (by omega), hc, if_neg (by omega), hsp] at h
  unfold forM' at h
  simp only [List.foldlM_cons, List.foldlM_nil, Option.bind_eq_bind, hof] at h
  obtain ⟨dd, hdd⟩ : ∃ dd, dd = (upto 1 2).foldl (fun d i => cuppens 1 2 (fun _ => a) i d) (fun _ => (0 : ℝ)) := ⟨_, rfl⟩
  have hdd0 : dd 0 = -a ∧ dd 1 = -a := by
    rw [hdd, show upto 1 2 = [1] by decide]
    simp [cuppens, setF, tileN, abs_of_pos ha]
  obtain ⟨lf, hlf⟩ : ∃ lf, lf = (upto 0 2).foldl (fun x i => solveLeaf P 1 2 (fun _ => a) i x)
    (dd, fun x y => if x < 2 ∧ y < 2 then 0 else w.e0 x y) := ⟨_, rfl⟩
  rw [← hdd, ← hlf] at h
  obtain ⟨-, -, f3⟩ := leaves_fold (m := 2) (nb := 1) P (by omega) (fun _ => a) dd (fun x y => if x < 2 ∧ y < 2 then 0 else w.e0 x y) 2 (by decide)
  rw [← hlf] at f3
  have ht : tileN 1 2 0 = 1 ∧ tileN 1 2 1 = 1 := by decide
  have g0 := f3 0 (by omega)
  have g1 := f3 1 (by omega)
  rw [ht.1] at g0
  rw [ht.2] at g1
  have g01 := g0.1 0 (by omega)
  have g02 := g0.2 0 (by omega) 0 (by omega)
  have g11 := g1.1 0 (by omega)
  have g12 := g1.2 0 (by omega) 0 (by omega)
  rw [(hst1 _ _).1] at g01 g11
  have k0 : lf.1 0 = -a := by
    refine g01.trans ?_
    simp [shF, hdd0.1]
  have k1 : lf.1 1 = -a := by
    refine g11.trans ?_
    simp [shF, hdd0.2]
  have q0 : lf.2 0 0 ^ 2 = 1 := by
    rw [show lf.2 0 0 = _ from g02]
    exact (hst1 _ _).2
  have q1 : lf.2 1 1 ^ 2 = 1 := by
    rw [show lf.2 1 1 = _ from g12]
    exact (hst1 _ _).2
  unfold mergeSub at h
  obtain ⟨s1, e1, a0, a1, a2, a3, a4⟩ := small_step1 (P := P) (rho := a) (s := { w with d0 := putF w.d0 0 2 lf.1, e0 := lf.2 }) ha
    (abs_of_pos ha) hle (by simp [putF, k0]) (by simp [putF, k1]) q0 q1
  obtain ⟨s2, p, e2, b0, b1, b2⟩ := small_step2 h4 hav (rho := a) (abs_of_pos ha) a0 a1 a2 a3 a4
  simp only [Option.bind_eq_bind] at h
  rw [e1] at h
  simp only [Option.bind_some] at h
  rw [e2] at h
  simp only [Option.bind_some] at h
  unfold dcStep3 at h
  dsimp only at h
  have p1 : probN 1 2 0 2 = 2 := by decide
  have wl : ∀ {α : Type} (f : Nat → α), winL f (0 * 1) 2 = [f 0, f 1] := fun f => by simp [winL, List.range_succ]
  have hi : ∀ f : Nat → Nat, initIdx 1 2 0 2 f 0 = 0 ∧ initIdx 1 2 0 2 f 1 = 1 := fun f => by simp [initIdx]
  have hso : sortIndex 1 [(0 : ℝ), -a] [0, 1] = some [1, 0] := by
    simp [sortIndex, stdMerge, ha]
  rw [p1, wl, wl, (hi _).1, (hi _).2, b0, b1, b2, hso] at h
  simp only [Option.bind_eq_bind, Option.bind_some, Option.bind_assoc] at h
  cases hm : multEvecs 1 (0 * 1) 2 (probN 1 2 0 1) (probN 1 2 1 2) p s2.e0 s2.e1 s2.e2 with
  | none => rw [hm] at h; simp at h
  | some e0 =>
    rw [hm] at h
    simp only [Option.bind_some, Option.pure_def] at h
    have wl2 : ∀ f : Nat → Nat, winL (putL f (0 * 1) [1, 0]) 0 2 = [1, 0] := fun f => by simp [winL, putL, List.range_succ]
    have wl3 : winL s2.d0 0 2 = [0, -a] := by simp [winL, List.range_succ, b1, b2]
    rw [wl2, wl3, show applyIndex [1, 0] [(0 : ℝ), -a] = some [-a, 0] by simp [applyIndex, mapOpt]] at h
    simp only [Option.bind_some, Option.some.injEq, Prod.mk.injEq] at h
    rw [← h.1]
    simp [putL]

end DLAF
