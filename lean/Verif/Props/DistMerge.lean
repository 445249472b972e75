import Verif.Lemmas.DistMergePhases
import Verif.Lemmas.OrthSpectrum
/- C72: the steps 2 to 4 of the distributed merge solve the rank-one update. -/
namespace DLAF
open DistMerge DLAF.C34 DLAF.C67 DLAF.DistR1 Matrix

section
variable {P : Params2} {M : MgPar} {nb ib n1 n2 : Nat} (h : MergeIn P M nb ib n1 n2)
include h

/-- The place of a non-deflated column is one of the first `k`. -/
theorem DistMerge.PartOk.i6k {R : Int → DistPart.Result} {d1 z1 : List ℝ} {a b c : Nat} (k : PartOk P M (ib * nb) n1 n2 R d1 z1 a b c) {j : Nat} (hj : j < n1 + n2) :
    (R 0).i6.getD j 0 < (R 0).k ↔ (typesAlong M.types (R 0).index_sorted_coltype)[j]? ≠ some .Deflated := by
  have hvc := h.square.col.valid
  have hvr := h.square.row.valid
  have hc := hvc.sub (o := (ib * nb : Nat)) (n := (n1 + n2 : Nat)) (by omega) (by omega)
  obtain ⟨⟨q0, q1⟩, -⟩ := DistPart.col_surj (p := P.col.sub (ib * nb : Nat) (n1 + n2 : Nat)) hc rfl hj
  have hg : 0 < P.row.grid := hvr.2.2.2.2.1
  have hr : (⟨0, (P.col.sub (ib * nb : Nat) (n1 + n2 : Nat)).owner j⟩ : Coord2) ∈ P.ranks := Params2.mem_ranks_iff.2 ⟨⟨Int.le_refl 0, hg⟩, q0, q1⟩
  have o1 : P.col.owner (ib * nb + j : Nat) = (P.col.sub (ib * nb : Nat) (n1 + n2 : Nat)).owner j := by
    rw [sub_owner]; push_cast; rfl
  obtain ⟨l, b1, b2, b3⟩ := win_here hvc (off := ib * nb) (n := n1 + n2) (e := j) hj o1
  have e1 := (k.fits.split _ q0 q1).2 l b1
  rw [show localColumn (subP P (ib * nb) (n1 + n2)).col ((P.col.sub (ib * nb : Nat) (n1 + n2 : Nat)).owner j) l = j from b2] at e1
  have e2 := k.klc _ hr j hj rfl
  rw [b3] at e2
  rw [← e1, ← e2]
  exact Int.ofNat_lt.symm

/-- C72: every process ends with the same eigenvalues `lam`, their ascending order `i1`, and its part of eigenvectors `V` of the rank-one update of the two sub-problems; they do not
depend on the contents of the work spaces (`A1`, `A2`, `st`), the numbers of workers and the debug build. -/
theorem C72_merge (h4 : Laed4Spec M.laed4)
    {A0 : Nat → Nat → ℝ} (hb : HalfBlocks M (ib * nb) n1 n2 A0) {Q : Matrix (Fin (n1 + n2)) (Fin (n1 + n2)) ℝ} (hQ : Q = toM (n1 + n2) (n1 + n2) (win A0 (ib * nb)))
    (horth : Q.transpose * Q = 1) :
    ∃ (lam : Nat → ℝ) (i1 : List Nat) (V : Nat → Nat → ℝ),
      (toM (n1 + n2) (n1 + n2) V).transpose * toM (n1 + n2) (n1 + n2) V = 1 ∧
      Q * rank1M (n1 + n2) (fun i => M.d.getD i 0) (zKept M) M.rho * Q.transpose * toM (n1 + n2) (n1 + n2) V = toM (n1 + n2) (n1 + n2) V * diagonal (fun j : Fin (n1 + n2) => lam j) ∧
      IsPerm (n1 + n2) i1 ∧ SortedAlong ((List.range (n1 + n2)).map lam) i1 ∧
      ∀ (dbg : Bool) (av : Coord2 → Nat), (∀ r ∈ P.ranks, 0 < av r) → ∀ (jB : DistR1.Msg → Blk ℝ) (jM : Blk ℝ → DistR1.Msg) (A1 A2 : Nat → Nat → ℝ) (st : Coord2 → MgSt),
      (∀ r ∈ P.ranks, HoldsLoc P r (st r).ev.e0 A0) → (∀ r ∈ P.ranks, HoldsLoc P r (st r).ev.e1 A1) → (∀ r ∈ P.ranks, HoldsLoc P r (st r).ev.e2 A2) →
      AlwaysEnds (Conf.init (fun r => if r ∈ P.ranks then steps M (P.on r) ib dbg n1 n2 (av r) jB jM else []) st) fun fin =>
        ∀ r ∈ P.ranks, (∀ e < n1 + n2, (fin r).r1.evals e = lam e) ∧ (fin r).i1 = i1 ∧ HoldsLoc P r (fin r).ev.e0 (withWin (ib * nb) (n1 + n2) V A0) := by
  obtain ⟨R, d1, z1, a, b, c, k⟩ := h.partOk
  obtain ⟨i1, s1, s2, s3⟩ := k.sort h h4
  obtain ⟨off, hoff⟩ : ∃ off, off = ib * nb := ⟨_, rfl⟩
  obtain ⟨n, hn⟩ : ∃ n, n = n1 + n2 := ⟨_, rfl⟩
  obtain ⟨G, hG⟩ : ∃ G, G = r1Cfg M (R 0) d1 z1 := ⟨_, rfl⟩
  obtain ⟨cs, hcs⟩ : ∃ cs, cs = typesAlong M.types (R 0).index_sorted_coltype := ⟨_, rfl⟩
  obtain ⟨V, hV⟩ : ∃ V : Nat → Nat → ℝ, V = fun i j => if cs[j]? = some .Deflated then A0 (off + i) (off + (R 0).index_sorted_coltype.getD j 0)
      else ∑ l ∈ Finset.range n, A0 (off + i) (off + (R 0).index_sorted_coltype.getD l 0) *
        if (R 0).i4.getD l 0 < (R 0).k ∧ (R 0).i6.getD j 0 < (R 0).k then vecOf G ((R 0).i4.getD l 0) ((R 0).i6.getD j 0) else 0 := ⟨_, rfl⟩
  have hE := vec_pairs (g := r1Cfg M (R 0) d1 z1) h4 fun _ => k.secular h
  have ent := k.ent
  have hle := ent.le
  have i6k := fun {j : Nat} (hj : j < n1 + n2) => k.i6k h hj
  have d1g := k.d1_get
  have z1g := k.z1_get
  rw [← hG] at hE s3
  rw [← hcs] at i6k
  rw [← hoff] at hQ
  have gk : G.k = (R 0).k := by rw [hG]; rfl
  have gd : G.d = fun i => d1.getD i 0 := by rw [hG]; rfl
  have gz : G.z = fun i => z1.getD i 0 := by rw [hG]; rfl
  have gr : G.rho = M.rho := by rw [hG]; rfl
  have g6 : G.i6 = (R 0).i6 := by rw [hG]; rfl
  have i4k := ent.i4k
  have defl := ent.defl
  rw [← hcs] at i4k defl
  rw [gk, gd, gz, gr] at hE
  obtain ⟨lam, hlam⟩ : ∃ lam : Nat → ℝ, lam = fun a => if a < (R 0).k then lamOf G a else d1.getD a 0 := ⟨_, rfl⟩
  have elam : ∀ e, eigOf G e = lam ((R 0).i6.getD e 0) := fun e => by
    unfold eigOf
    rw [g6, gk, gd, hlam]
  have hVm : toM (n1 + n2) (n1 + n2) V = (Q * (toM (n1 + n2) (n1 + n2) (blkW (R 0).k (vecOf G))).submatrix (permEquiv ent.perm3).symm id).submatrix id (permEquiv ent.perm6) := by
    ext i j
    rw [Matrix.submatrix_apply, Matrix.mul_apply]
    rw [← Equiv.sum_comp ((permEquiv ent.perm4).trans (permEquiv ent.perm3))]
    have term : ∀ l : Fin (n1 + n2), Q (id i) (((permEquiv ent.perm4).trans (permEquiv ent.perm3)) l) *
        (toM (n1 + n2) (n1 + n2) (blkW (R 0).k (vecOf G))).submatrix (permEquiv ent.perm3).symm id (((permEquiv ent.perm4).trans (permEquiv ent.perm3)) l) ((permEquiv ent.perm6) j) =
        A0 (off + i) (off + (R 0).index_sorted_coltype.getD l 0) * blkW (R 0).k (vecOf G) ((R 0).i4.getD l 0) ((R 0).i6.getD j 0) := by
      intro l
      rw [Matrix.submatrix_apply, Equiv.trans_apply, Equiv.symm_apply_apply, hQ]
      unfold toM win
      rw [permEquiv_apply, permEquiv_apply, ent.h34 l l.2]
      rfl
    rw [Finset.sum_congr rfl fun l _ => term l, Finset.sum_fin_eq_sum_range]
    show V i j = _
    rw [hV]
    dsimp only
    by_cases hd : cs[(j : Nat)]? = some .Deflated
    · have hjk : ¬ (R 0).i6.getD j 0 < (R 0).k := fun hc => (i6k j.2).1 hc hd
      rw [if_pos hd, Finset.sum_eq_single_of_mem (j : Nat) (Finset.mem_range.2 j.2)]
      · rw [dif_pos j.2]
        unfold blkW
        rw [if_neg (fun hc => hjk hc.2), if_pos (defl j j.2 hd).symm, mul_one]
      · intro l hl hne
        have hl' := Finset.mem_range.1 hl
        rw [dif_pos hl']
        unfold blkW
        rw [if_neg (fun hc => hjk hc.2), if_neg, mul_zero]
        intro hc
        rw [defl j j.2 hd] at hc
        exact hne (IsPerm.getD_inj ent.perm4 hl' j.2 hc)
    · have hjk : (R 0).i6.getD j 0 < (R 0).k := (i6k j.2).2 hd
      rw [if_neg hd, hn]
      refine Finset.sum_congr rfl fun l hl => ?_
      have hl' := Finset.mem_range.1 hl
      rw [dif_pos hl']
      congr 1
      unfold blkW
      by_cases hc : (R 0).i4.getD l 0 < (R 0).k
      · rw [if_pos ⟨hc, hjk⟩, if_pos ⟨hc, hjk⟩]
      · rw [if_neg (fun hx => hc hx.1), if_neg (fun hx => hc hx.1), if_neg (by omega)]
  obtain ⟨m1, m2⟩ := merge_exact (n := n1 + n2) (k := (R 0).k) hle (rho := M.rho) (d := fun i => M.d.getD i 0) (z := zKept M) (d2 := fun i => d1.getD i 0) (z2 := fun i => z1.getD i 0)
    (lam := lam) horth (permEquiv ent.perm3) (permEquiv ent.perm6)
    (fun l => by rw [permEquiv_apply]; exact d1g l l.2)
    (fun l hl => by
      rw [permEquiv_apply]
      unfold zKept
      rw [if_neg (ent.keep l hl)]
      exact z1g l l.2)
    (fun l hl => by
      rw [permEquiv_apply]
      unfold zKept
      rw [if_pos (ent.drop l hl l.2)])
    (U := vecOf G) hE.orth
    (fun i hi a ha => by
      rw [hE.eig a ha i hi, hlam]
      dsimp only
      rw [if_pos ha])
    (fun a ha _ => by
      rw [hlam]
      dsimp only
      rw [if_neg (by omega)])
    hVm
  refine ⟨fun e => lam ((R 0).i6.getD e 0), i1, V, m1, m2, s2, ?_, fun dbg av hav jB jM A1 A2 st h0 h1 h2 => ?_⟩
  · have : (List.range (n1 + n2)).map (eigOf G) = (List.range (n1 + n2)).map fun e => lam ((R 0).i6.getD e 0) := List.map_congr_left fun e _ => elam e
    rw [← this]
    exact s3
  · obtain ⟨g', r1, _, r3⟩ := steps_runs h h4 k dbg hav jB jM hb s1 (g := ⟨st, fun _ _ => 0, fun _ _ _ => none⟩) (Clean.init _ _) h0 h1 h2
    rw [← hG, ← hcs, ← hoff] at r3
    rw [← hoff]
    refine r1.alwaysEnds fun r hr => ?_
    obtain ⟨u1, u2, u3⟩ := r3 r hr
    refine ⟨fun e he => (u1 e he).trans (elam e), u2, fun x y hx hy ox oy => (u3 x y hx hy ox oy).trans ?_⟩
    unfold mergedEvecs withWin
    by_cases hw : (off ≤ x ∧ x < off + (n1 + n2)) ∧ (off ≤ y ∧ y < off + (n1 + n2))
    · rw [if_pos hw, if_pos hw, hV]
      dsimp only
      have hx' : off + (x - off) = x := by omega
      rw [hx', hn]
      refine if_congr Iff.rfl ?_ (Finset.sum_congr rfl fun l hl => ?_)
      · unfold permWin
        rw [if_pos hw]
      · have hl' := Finset.mem_range.1 hl
        congr 1
        · unfold permWin
          rw [if_pos ⟨hw.1, by omega, by omega⟩, Nat.add_sub_cancel_left]
        · unfold vecWin
          rw [if_pos ⟨⟨by omega, by omega⟩, hw.2⟩, Nat.add_sub_cancel_left]
    · rw [if_neg hw, if_neg hw]

/-- C72: the eigenvalues are all those of the rank-one update, each as often as its multiplicity. -/
theorem C72_all_eigenvalues (h4 : Laed4Spec M.laed4) (dbg : Bool) {av : Coord2 → Nat} (hav : ∀ r ∈ P.ranks, 0 < av r) (jB : DistR1.Msg → Blk ℝ) (jM : Blk ℝ → DistR1.Msg)
    {A0 A1 A2 : Nat → Nat → ℝ} (hb : HalfBlocks M (ib * nb) n1 n2 A0)
    (horth : (toM (n1 + n2) (n1 + n2) (win A0 (ib * nb))).transpose * toM (n1 + n2) (n1 + n2) (win A0 (ib * nb)) = 1)
    {st : Coord2 → MgSt} (h0 : ∀ r ∈ P.ranks, HoldsLoc P r (st r).ev.e0 A0) (h1 : ∀ r ∈ P.ranks, HoldsLoc P r (st r).ev.e1 A1)
    (h2 : ∀ r ∈ P.ranks, HoldsLoc P r (st r).ev.e2 A2) :
    AlwaysEnds (Conf.init (fun r => if r ∈ P.ranks then steps M (P.on r) ib dbg n1 n2 (av r) jB jM else []) st) fun fin =>
      ∀ r ∈ P.ranks, (rank1M (n1 + n2) (fun i => M.d.getD i 0) (zKept M) M.rho).charpoly.roots = Multiset.map (fin r).r1.evals (Multiset.range (n1 + n2)) := by
  obtain ⟨lam, i1, V, v1, v2, -, -, v5⟩ := C72_merge h h4 hb rfl horth
  obtain ⟨m, f, hd, hfin, hs⟩ := v5 dbg av hav jB jM A1 A2 st h0 h1 h2
  refine ⟨m, f, hd, fun r hr => ?_, hs⟩
  rw [orth_roots horth v1 v2]
  exact Multiset.map_congr rfl fun e he => ((hfin r hr).1 e (Multiset.mem_range.1 he)).symm

/-- C72: all members of a communicator perform the same collectives in the same order. -/
theorem C72_same_collectives (dbg : Bool) (av : Coord2 → Nat) (jB : DistR1.Msg → Blk ℝ) (jM : Blk ℝ → DistR1.Msg) :
    SameCollectives P.ranks fun r => steps M (P.on r) ib dbg n1 n2 (av r) jB jM := by
  obtain ⟨R, d1, z1, a, b, c, k⟩ := h.partOk
  obtain ⟨B1, B2, B3, B4, B5, B6, -⟩ := k.bounds
  have hl := k.cs_len
  intro ch r hr s hs hcr hcs
  have key : ∀ r ∈ P.ranks, sigs ch (steps M (P.on r) ib dbg n1 n2 (av r) jB jM) =
      sigs ch (DistR1.program (r1Cfg M (R 0) d1 z1) ((subP P (ib * nb) (n1 + n2)).on r) (n1 + n2) (R r.col).k_lc (av r)) ++
      sigs ch (distMultEvecs (K := ℝ) dbg (P.on r) (ib * nb : Nat) (n1 + n2 : Nat) n1 n2 (R r.col).k_lc a b c) := by
    intro r hr
    rw [k.prog h dbg (av r) jB jM hr, sigs_append, sigs_append, sigs_append, sigs_append, sigs_emb, sigs_emb]
    simp [sigs]
  show sigs ch (steps M (P.on r) ib dbg n1 n2 (av r) jB jM) = sigs ch (steps M (P.on s) ib dbg n1 n2 (av s) jB jM)
  rw [key r hr, key s hs]
  have e1 := C68.C68_same_collectives (P := subP P (ib * nb) (n1 + n2)) (g := r1Cfg M (R 0) d1 z1) (klc := fun q => (R q).k_lc) (n := n1 + n2) av ch r hr s hs hcr hcs
  have e2 := C69_same_collectives (K := ℝ) h.square dbg (n := n1 + n2) (n1 := n1) (n2 := n2) (a := a) (b := b) (c := c) rfl h.fits (by omega) (by omega) (by omega)
    (fun r => (R r.col).k_lc) ch r hr s hs hcr hcs
  dsimp only at e1 e2
  rw [e1, e2]

end

/-! Columns 2 to 6 of an 8 × 8 matrix on a 2 × 2 grid; the second column of the sub-problem is deflated. -/
namespace Ex72
def P : Params2 := ⟨⟨8, 2, 2, 2, 0, 1, 0⟩, ⟨8, 2, 2, 2, 0, 0, 0⟩⟩
noncomputable def M : MgPar where
  laed4 := laed4Std
  debug := true
  types := [.UpperHalf, .Deflated, .Dense, .LowerHalf, .LowerHalf]
  d := [0, 1, 2, 3, 4]
  z := [1, 1, 2, 1, 1]
  rho := 2
  perm := [0, 1, 2, 3, 4]
  out1 := [0, 0, 0, 0, 0]
  out2 := [0, 0, 0, 0, 0]
def A0 : Nat → Nat → ℝ := fun x y => if x = y then 1 else 0

theorem mergeIn : MergeIn P M 2 1 2 3 where
  square := by decide
  tile := rfl
  fits := by decide
  types_len := rfl
  d_len := rfl
  z_len := rfl
  out1_len := rfl
  out2_len := rfl
  perm := List.Perm.refl _
  rho := by norm_num [M]
  asc := by
    have : (M.perm.filter fun i => M.types[i]? ≠ some .Deflated) = [0, 2, 3, 4] := by decide
    rw [this]
    simp [M]
    norm_num
  z_ne := by
    intro i hi _
    have : i < 5 := hi
    interval_cases i <;> simp [M]

theorem halves : HalfBlocks M (1 * 2) 2 3 A0 := by
  refine ⟨fun i hi h2 j hj => ?_, fun i hi j hj => ?_⟩
  · have : j < 5 := (List.getElem?_eq_some_iff.1 hj).1
    interval_cases j <;> simp [M] at hj
    exact if_neg (by omega)
  · have : j < 5 := (List.getElem?_eq_some_iff.1 hj).1
    interval_cases j <;> simp [M] at hj
    · exact if_neg (by omega)
    · exact if_neg (by omega)

noncomputable def locOf (A : Nat → Nat → ℝ) (r : Coord2) : LocE ℝ := fun x y =>
  A ((P.at' .Row r).dist.global_element_from_local_element x).toNat ((P.at' .Col r).dist.global_element_from_local_element y).toNat

theorem locOf_holds (A : Nat → Nat → ℝ) : ∀ r ∈ P.ranks, HoldsLoc P r (locOf A r) A := by
  intro r hr x y hx hy ox oy
  obtain ⟨vr, vc⟩ := Params2.at_valid (P := P) (by decide) (by decide) hr
  have a := C03_owned_global_local_global vr (e := x) (by omega) ox
  have b := C03_owned_global_local_global vc (e := y) (by omega) oy
  rw [vr.localPos_here (by omega) ox] at a
  rw [vc.localPos_here (by omega) oy] at b
  have a' : (P.at' .Row r).dist.global_element_from_local_element (P.row.localPos x) = x := a
  have b' : (P.at' .Col r).dist.global_element_from_local_element (P.col.localPos y) = y := b
  unfold locOf
  rw [a', b', Int.toNat_natCast, Int.toNat_natCast]

theorem orth : (toM 5 5 (win A0 (1 * 2))).transpose * toM 5 5 (win A0 (1 * 2)) = 1 := by
  have : toM 5 5 (win A0 (1 * 2)) = (1 : Matrix (Fin 5) (Fin 5) ℝ) := by
    ext i j
    rw [Matrix.one_apply]
    unfold toM win A0
    refine if_congr ?_ rfl rfl
    rw [Fin.ext_iff]
    omega
  rw [this, Matrix.transpose_one, Matrix.one_mul]

example : P.ranks.length = 4 := by decide
/-- The partition on both process columns: the process columns hold 2 and 2 non-deflated columns. -/
example : ∀ c ∈ [0, 1], (DistPart.stablePartition ((P.col.sub 2 5).onRank c).dist M.types [0, 1, 2, 3, 4] M.perm M.out1 M.out2).map (fun R => (R.k, R.k_lc)) = some (4, 2) := by
  decide +kernel

/-- The hypotheses of the merge can be met. -/
example := C72_merge (P := P) (M := M) (nb := 2) (ib := 1) (n1 := 2) (n2 := 3) mergeIn laed4Std_spec (A0 := A0) halves rfl orth
example (s : MgSt) (jB : DistR1.Msg → Blk ℝ) (jM : Blk ℝ → DistR1.Msg) := C72_all_eigenvalues (P := P) (M := M) (nb := 2) (ib := 1) (n1 := 2) (n2 := 3) mergeIn laed4Std_spec true
  (av := fun _ => 3) (fun _ _ => by omega) jB jM (A0 := A0) (A1 := fun _ _ => 7) (A2 := fun _ _ => 8) halves orth
  (st := fun r => { s with ev := ⟨locOf A0 r, locOf (fun _ _ => 7) r, locOf (fun _ _ => 8) r⟩ })
  (fun r hr => locOf_holds A0 r hr) (fun r hr => locOf_holds (fun _ _ => 7) r hr) (fun r hr => locOf_holds (fun _ _ => 8) r hr)
example (jB : DistR1.Msg → Blk ℝ) (jM : Blk ℝ → DistR1.Msg) := C72_same_collectives (P := P) (M := M) (nb := 2) (ib := 1) (n1 := 2) (n2 := 3) mergeIn true (fun r => if r.row = 0 then 1 else 3) jB jM
end Ex72
end DLAF
