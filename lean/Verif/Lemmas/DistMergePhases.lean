import Verif.Lemmas.DistMergeLoc
/- The steps 2 to 4 of the distributed merge: the phases. -/
namespace DLAF
namespace DistMerge
open DLAF.C34 DLAF.C67 DLAF.DistR1

/-- What the partition gives to the other steps, on all processes. -/
structure PartOk (P : Params2) (M : MgPar) (off n1 n2 : Nat) (R : Int → DistPart.Result) (d1 z1 : List ℝ) (a b c : Nat) : Prop where
  part : ∀ q, 0 ≤ q → q < P.col.grid → DistPart.stablePartition ((subP P off (n1 + n2)).col.onRank q).dist M.types M.d M.perm M.out1 M.out2 = some (R q)
  same : ∀ q, 0 ≤ q → q < P.col.grid → R q = { R 0 with k_lc := (R q).k_lc, i5_lc := (R q).i5_lc }
  ent : Entries (n1 + n2) M.types M.d M.perm (R 0)
  fits : Rank1Fits (subP P off (n1 + n2)) (n1 + n2) (R 0).k (R 0).i4 (R 0).i6 (R 0).i2 fun q => (R q).k_lc
  d1_eq : applyIndex (R 0).index_sorted M.d = some d1
  z1_eq : applyIndex (R 0).index_sorted M.z = some z1
  d1_get : ∀ i < n1 + n2, d1.getD i 0 = M.d.getD ((R 0).index_sorted.getD i 0) 0
  z1_get : ∀ i < n1 + n2, z1.getD i 0 = M.z.getD ((R 0).index_sorted.getD i 0) 0
  udl : (R 0).n_udl = [a, b, c]
  cs_len : (typesAlong M.types (R 0).index_sorted_coltype).length = n1 + n2
  bounds : Bounds (typesAlong M.types (R 0).index_sorted_coltype) a b c
  klc : ∀ r ∈ P.ranks, ∀ j < n1 + n2, (P.col.sub off (n1 + n2 : Nat)).owner j = r.col →
    ((P.col.sub off (n1 + n2 : Nat)).localPos j < ((R r.col).k_lc : Int) ↔ (typesAlong M.types (R 0).index_sorted_coltype)[j]? ≠ some .Deflated)

section
variable {P : Params2} {M : MgPar} {nb ib n1 n2 : Nat} (h : MergeIn P M nb ib n1 n2)
include h

theorem apply_get {n : Nat} {idx : List Nat} {x y : List ℝ} (hp : IsPerm n idx) (hx : x.length = n) (he : ∀ i (hi : i < idx.length), y[i]? = x[idx[i]]?) :
    ∀ i < n, y.getD i 0 = x.getD (idx.getD i 0) 0 := by
  intro i hi
  have hi' : i < idx.length := by rw [hp.length]; exact hi
  rw [List.getD_eq_getElem?_getD, he i hi', List.getD_eq_getElem?_getD (l := x), List.getD_eq_getElem?_getD (l := idx), List.getElem?_eq_getElem hi', Option.getD_some]

theorem MergeIn.partOk : ∃ R d1 z1 a b c, PartOk P M (ib * nb) n1 n2 R d1 z1 a b c := by
  obtain ⟨R, hR⟩ := h.parts
  have hvc := h.square.col.valid
  have hvr := h.square.row.valid
  have hc := hvc.sub (o := (ib * nb : Nat)) (n := (n1 + n2 : Nat)) (by omega) (by omega)
  have hr := hvr.sub (o := (ib * nb : Nat)) (n := (n1 + n2 : Nat)) (by omega) (by omega)
  have hg : 0 < P.col.grid := hvc.2.2.2.2.1
  have h0 := hc.onRank (r := 0) (by omega) hg
  have hR0 := (hR 0 (by omega) hg).1
  have E := entries (p := (P.col.sub (ib * nb : Nat) (n1 + n2 : Nat)).onRank 0) h0 rfl h.types_len h.d_len h.out1_len h.out2_len h.perm hR0
  obtain ⟨d1, x1, x2, x3⟩ := C34_apply E.perm3 h.d_len
  obtain ⟨z1, y1, y2, y3⟩ := C34_apply E.perm3 h.z_len
  obtain ⟨a, b, c, u1, u2, u3⟩ := C67_bounds (p := (P.col.sub (ib * nb : Nat) (n1 + n2 : Nat)).onRank 0) h0 rfl h.types_len h.d_len h.out1_len h.out2_len h.perm hR0
  refine ⟨R, d1, z1, a, b, c, fun q q0 q1 => (hR q q0 q1).1, fun q q0 q1 => (hR q q0 q1).2, E,
    C68.C68_partition_fits (P := subP P (ib * nb) (n1 + n2)) hr hc rfl rfl h.types_len h.d_len h.out1_len h.out2_len h.perm fun q q0 q1 => (hR q q0 q1).1,
    x1, y1, apply_get h E.perm3 h.d_len x3, apply_get h E.perm3 h.z_len y3, u1, u2, u3, ?_⟩
  intro r hrr j hj ho
  obtain ⟨c0, c1⟩ : 0 ≤ r.col ∧ r.col < P.col.grid := Params2.mem_ranks.1 hrr .Col
  obtain ⟨e1, e2⟩ := hR r.col c0 c1
  have := DLAF.C69_partition (p := (P.col.sub (ib * nb : Nat) (n1 + n2 : Nat)).onRank r.col) (hc.onRank c0 c1) rfl h.types_len h.d_len h.out1_len h.out2_len h.perm e1 j hj ho
  rw [e2] at this
  exact this

theorem PartOk.prog {R : Int → DistPart.Result} {d1 z1 : List ℝ} {a b c : Nat} (k : PartOk P M (ib * nb) n1 n2 R d1 z1 a b c) (dbg : Bool) (av : Nat) (jB : DistR1.Msg → Blk ℝ)
    (jM : Blk ℝ → DistR1.Msg) {r : Coord2} (hr : r ∈ P.ranks) :
    steps M (P.on r) ib dbg n1 n2 av jB jM =
      [.loc fun st => some (loadQ (P.on r) ib (zeroE2 (P.on r) ((subP P (ib * nb) (n1 + n2)).on r) ib (permLocal (P.on r) ((subP P (ib * nb) (n1 + n2)).on r) ib (R r.col).i5_lc st)))] ++
        Instr.embL (embR1 jM) (DistR1.program (r1Cfg M (R 0) d1 z1) ((subP P (ib * nb) (n1 + n2)).on r) (n1 + n2) (R r.col).k_lc av) ++
        [.loc fun st => some (storeQ (P.on r) ((subP P (ib * nb) (n1 + n2)).on r) ib st)] ++
        Instr.embL (embMul jB) (distMultEvecs dbg (P.on r) (ib * nb : Nat) (n1 + n2 : Nat) n1 n2 (R r.col).k_lc a b c) ++
        [.loc fun st => finalSort (n1 + n2) (R 0) st] := by
  obtain ⟨c0, c1⟩ : 0 ≤ r.col ∧ r.col < P.col.grid := Params2.mem_ranks.1 hr .Col
  have hsz := h.square.size
  have hf := h.fits
  have e1 := sub_on h.square.row.valid h.square.col.valid hr (o := ⟨(ib * nb : Nat), (ib * nb : Nat)⟩) (n := ⟨(n1 + n2 : Nat), (n1 + n2 : Nat)⟩) ⟨by dsimp only; omega, by dsimp only; omega⟩
    ⟨by dsimp only; omega, by dsimp only; omega⟩ ⟨by dsimp only; push_cast at *; omega, by dsimp only; push_cast at *; omega⟩
  have ht : (ib : Int) * (P.on r).row.tileSize = (ib * nb : Nat) := by
    rw [show (P.on r).row.tileSize = nb from h.tile]; push_cast; rfl
  have e2 : DistPart.stablePartition ((subP P (ib * nb) (n1 + n2)).on r).col M.types M.d M.perm M.out1 M.out2 = some { R 0 with k_lc := (R r.col).k_lc, i5_lc := (R r.col).i5_lc } := by
    rw [← k.same r.col c0 c1]
    exact k.part r.col c0 c1
  unfold steps
  dsimp only
  rw [ht, e1]
  dsimp only
  rw [e2]
  dsimp only
  rw [k.d1_eq, k.z1_eq, k.udl]
  rfl

theorem PartOk.secular {R : Int → DistPart.Result} {d1 z1 : List ℝ} {a b c : Nat} (k : PartOk P M (ib * nb) n1 n2 R d1 z1 a b c) :
    SecularInput (r1Cfg M (R 0) d1 z1).k (r1Cfg M (R 0) d1 z1).d (r1Cfg M (R 0) d1 z1).z (r1Cfg M (R 0) d1 z1).rho := by
  have hle := k.ent.le
  refine ⟨h.rho, fun i j hij hj => ?_, fun j hj => ?_⟩
  · have hj' : j < (R 0).k := hj
    show d1.getD i 0 < d1.getD j 0
    rw [k.d1_get i (by omega), k.d1_get j (by omega)]
    exact k.ent.order _ h.asc i j hij hj
  · have hj' : j < (R 0).k := hj
    show z1.getD j 0 ≠ 0
    rw [k.z1_get j (by omega)]
    exact h.z_ne _ (IsPerm.getD_lt k.ent.perm3 (by omega)) (k.ent.keep j hj)

/-- The eigenvalue in column `e`. -/
theorem PartOk.eig_at {R : Int → DistPart.Result} {d1 z1 : List ℝ} {a b c : Nat} (k : PartOk P M (ib * nb) n1 n2 R d1 z1 a b c) {i : Nat} (hi : i < n1 + n2) :
    ((List.range (n1 + n2)).map (eigOf (r1Cfg M (R 0) d1 z1)))[(R 0).i2.getD i 0]? =
      some (if i < (R 0).k then lamOf (r1Cfg M (R 0) d1 z1) i else M.d.getD ((R 0).index_sorted.getD i 0) 0) := by
  have h2 := IsPerm.getD_lt k.ent.perm2 hi
  rw [List.getElem?_map, List.getElem?_range h2, Option.map_some]
  unfold eigOf
  have e : (r1Cfg M (R 0) d1 z1).i6.getD ((R 0).i2.getD i 0) 0 = i := k.ent.inv i hi
  rw [e]
  have ek : (r1Cfg M (R 0) d1 z1).k = (R 0).k := rfl
  rw [ek]
  by_cases hc : i < (R 0).k
  · rw [if_pos hc, if_pos hc]
  · rw [if_neg hc, if_neg hc]
    exact congrArg some (k.d1_get i hi)

theorem PartOk.sort {R : Int → DistPart.Result} {d1 z1 : List ℝ} {a b c : Nat} (k : PartOk P M (ib * nb) n1 n2 R d1 z1 a b c) (h4 : Laed4Spec M.laed4) :
    ∃ i1, sortIndex (R 0).k ((List.range (n1 + n2)).map (eigOf (r1Cfg M (R 0) d1 z1))) (R 0).i2 = some i1 ∧ IsPerm (n1 + n2) i1 ∧
      SortedAlong ((List.range (n1 + n2)).map (eigOf (r1Cfg M (R 0) d1 z1))) i1 := by
  have hle := k.ent.le
  have hl2 := k.ent.perm2.length
  have g : ∀ {i : Nat} (hi : i < n1 + n2) (hi' : i < (R 0).i2.length), (R 0).i2[i] = (R 0).i2.getD i 0 := fun {i} _ hi' => by
    rw [List.getD_eq_getElem?_getD, List.getElem?_eq_getElem hi', Option.getD_some]
  refine C34_sort (by simp) k.ent.perm2 hle ?_ ?_
  · unfold SortedAlong
    rw [List.pairwise_iff_getElem]
    intro i j hi hj hij
    rw [List.length_take] at hi hj
    rw [List.getElem_take, List.getElem_take, g (by omega), g (by omega)]
    refine ⟨_, _, k.eig_at h (by omega), k.eig_at h (by omega), ?_⟩
    rw [if_pos (by omega), if_pos (by omega)]
    exact (lam_mono (g := r1Cfg M (R 0) d1 z1) h4 (fun _ => k.secular h) i j hij (show j < (R 0).k by omega)).le
  · unfold SortedAlong
    rw [List.pairwise_iff_getElem]
    intro i j hi hj hij
    rw [List.length_drop] at hi hj
    rw [List.getElem_drop, List.getElem_drop, g (by omega), g (by omega)]
    refine ⟨_, _, k.eig_at h (by omega), k.eig_at h (by omega), ?_⟩
    rw [if_neg (by omega), if_neg (by omega)]
    exact k.ent.sorted _ _ (by omega) (by omega) (by omega)

theorem PartOk.blocks {R : Int → DistPart.Result} {d1 z1 : List ℝ} {a b c : Nat} (k : PartOk P M (ib * nb) n1 n2 R d1 z1 a b c) {A0 A1 A2 W : Nat → Nat → ℝ}
    (hb : HalfBlocks M (ib * nb) n1 n2 A0) :
    MergeBlocks (ib * nb) (n1 + n2) n1 (typesAlong M.types (R 0).index_sorted_coltype) (permWin (ib * nb) (n1 + n2) (R 0).index_sorted_coltype A0 A1)
      (vecWin (ib * nb) (n1 + n2) (R 0).k (R 0).i4 (R 0).i6 W A2) := by
  have lt : ∀ {j : Nat} {t : ColType}, (typesAlong M.types (R 0).index_sorted_coltype)[j]? = some t → j < n1 + n2 := fun {j t} hj => by
    have := (List.getElem?_eq_some_iff.1 hj).1
    rw [k.cs_len] at this
    exact this
  refine ⟨fun i hi hi1 j hj => ?_, fun i hi j hj => ?_, fun l hl hd j hj hj' => ?_⟩
  · have hjn := lt hj
    unfold permWin
    rw [if_pos (by omega), Nat.add_sub_cancel_left]
    rw [k.ent.types5 j hjn] at hj
    exact hb.upper i hi hi1 _ hj
  · have hjn := lt hj
    unfold permWin
    rw [if_pos (by omega), Nat.add_sub_cancel_left]
    rw [k.ent.types5 j hjn] at hj
    exact hb.lower i hi _ hj
  · unfold vecWin
    rw [if_pos (by omega), Nat.add_sub_cancel_left, if_neg]
    intro hc
    exact ((k.ent.i4k l hl).1 hc.1) hd

/-- The whole run. -/
theorem steps_runs (h4 : Laed4Spec M.laed4) {R : Int → DistPart.Result} {d1 z1 : List ℝ} {a b c : Nat} (k : PartOk P M (ib * nb) n1 n2 R d1 z1 a b c) (dbg : Bool) {av : Coord2 → Nat}
    (hav : ∀ r ∈ P.ranks, 0 < av r) (jB : DistR1.Msg → Blk ℝ) (jM : Blk ℝ → DistR1.Msg) {A0 A1 A2 : Nat → Nat → ℝ} (hb : HalfBlocks M (ib * nb) n1 n2 A0)
    {i1 : List Nat} (hi1 : sortIndex (R 0).k ((List.range (n1 + n2)).map (eigOf (r1Cfg M (R 0) d1 z1))) (R 0).i2 = some i1)
    {g : Glob MgSt MgMsg} (hg : Clean P.ranks g) (h0 : ∀ r ∈ P.ranks, HoldsLoc P r (g.st r).ev.e0 A0) (h1 : ∀ r ∈ P.ranks, HoldsLoc P r (g.st r).ev.e1 A1)
    (h2 : ∀ r ∈ P.ranks, HoldsLoc P r (g.st r).ev.e2 A2) :
    ∃ g', Runs (fun r => if r ∈ P.ranks then steps M (P.on r) ib dbg n1 n2 (av r) jB jM else []) g g' ∧ Clean P.ranks g' ∧
      ∀ r ∈ P.ranks, (∀ e < n1 + n2, (g'.st r).r1.evals e = eigOf (r1Cfg M (R 0) d1 z1) e) ∧ (g'.st r).i1 = i1 ∧
        HoldsLoc P r (g'.st r).ev.e0 (mergedEvecs (ib * nb) (n1 + n2) (typesAlong M.types (R 0).index_sorted_coltype) A0
          (permWin (ib * nb) (n1 + n2) (R 0).index_sorted_coltype A0 A1) (vecWin (ib * nb) (n1 + n2) (R 0).k (R 0).i4 (R 0).i6 (vecOf (r1Cfg M (R 0) d1 z1)) A2)) := by
  have hcol : ∀ {r : Coord2}, r ∈ P.ranks → 0 ≤ r.col ∧ r.col < P.col.grid := fun {r} hr => Params2.mem_ranks.1 hr .Col
  -- the columns are reordered
  obtain ⟨c1, r1, k1, s1⟩ := Runs.locals_ex (V := MgMsg) P.ranks_nodup hg
    (fun r => [fun st => some (loadQ (P.on r) ib (zeroE2 (P.on r) ((subP P (ib * nb) (n1 + n2)).on r) ib (permLocal (P.on r) ((subP P (ib * nb) (n1 + n2)).on r) ib (R r.col).i5_lc st)))])
    (fun r s => s = loadQ (P.on r) ib (zeroE2 (P.on r) ((subP P (ib * nb) (n1 + n2)).on r) ib (permLocal (P.on r) ((subP P (ib * nb) (n1 + n2)).on r) ib (R r.col).i5_lc (g.st r))))
    (fun r hr => ⟨_, rfl, rfl⟩)
  -- the rank-one problem
  have hz : ∀ r ∈ P.ranks, ∀ x < localColumns (P.row.sub (ib * nb : Nat) (n1 + n2 : Nat)) r.row, ∀ y < localColumns (P.col.sub (ib * nb : Nat) (n1 + n2 : Nat)) r.col,
      (c1.st r).r1.q x y = 0 := fun r hr x hx y hy => by
    rw [s1 r hr]
    exact h.zero_q hr _ hx hy
  have hav' : ∀ r ∈ (subP P (ib * nb) (n1 + n2)).ranks, 0 < av r := hav
  obtain ⟨t2, p2, q2, w2⟩ := run_glob (P := subP P (ib * nb) (n1 + n2)) (g := r1Cfg M (R 0) d1 z1) (klc := fun q => (R q).k_lc) k.fits h4 (fun _ => k.secular h) (avail := av) hav'
    (g0 := (embR1 jM).part c1) ((embR1 jM).part_clean k1) (fun r hr x hx y hy _ => by
      have hs := (k.fits.split r.col (hcol hr).1 (hcol hr).2).1
      have hy' : y < (R r.col).k_lc := hy
      have hs' : (R r.col).k_lc ≤ localColumns (P.col.sub (ib * nb : Nat) (n1 + n2 : Nat)) r.col := hs
      exact hz r hr x hx y (by omega))
  obtain ⟨c2, r2, s2, k2⟩ := Runs.emb (embR1_ok jM) p2
  have k2 := k2 _ q2
  -- its eigenvectors
  obtain ⟨c3, r3, k3, s3⟩ := Runs.locals_ex (V := MgMsg) P.ranks_nodup k2
    (fun r => [fun st => some (storeQ (P.on r) ((subP P (ib * nb) (n1 + n2)).on r) ib st)])
    (fun r s => s = storeQ (P.on r) ((subP P (ib * nb) (n1 + n2)).on r) ib (c2.st r))
    (fun r hr => ⟨_, rfl, rfl⟩)
  -- the products
  have ev2 : ∀ r, (c2.st r).ev = (c1.st r).ev := fun r => by rw [s2]; rfl
  have hev : EvHolds P A0 (permWin (ib * nb) (n1 + n2) (R 0).index_sorted_coltype A0 A1) (vecWin (ib * nb) (n1 + n2) (R 0).k (R 0).i4 (R 0).i6 (vecOf (r1Cfg M (R 0) d1 z1)) A2)
      ((embMul jB).part c3) := by
    refine ⟨(embMul jB).part_clean k3, fun r hr => ?_, fun r hr => ?_, fun r hr => ?_⟩
    · show HoldsLoc P r (c3.st r).ev.e0 A0
      have : (c3.st r).ev.e0 = (g.st r).ev.e0 := by
        rw [s3 r hr]
        show (c2.st r).ev.e0 = _
        rw [ev2, s1 r hr]
        rfl
      rw [this]
      exact h0 r hr
    · show HoldsLoc P r (c3.st r).ev.e1 _
      have e5 : (R r.col).index_sorted_coltype = (R 0).index_sorted_coltype := by rw [k.same r.col (hcol hr).1 (hcol hr).2]
      have : (c3.st r).ev.e1 = (permLocal (P.on r) ((subP P (ib * nb) (n1 + n2)).on r) ib (R r.col).i5_lc (g.st r)).ev.e1 := by
        rw [s3 r hr]
        show (c2.st r).ev.e1 = _
        rw [ev2, s1 r hr]
        rfl
      rw [this, ← e5]
      exact h.permLocal_holds hr (k.part r.col (hcol hr).1 (hcol hr).2) (h0 r hr) (h1 r hr)
    · show HoldsLoc P r (c3.st r).ev.e2 _
      rw [s3 r hr]
      refine h.storeQ_holds hr (g := r1Cfg M (R 0) d1 z1) rfl k.fits (q := (c1.st r).r1.q) (fun x y hx hy ox oy hw => ?_) (fun x hx y hy => hz r hr x hx y hy) ?_
      · rw [ev2, s1 r hr]
        refine Eq.trans (if_neg fun hc => hw ((h.win hr ox oy).1 hc)) ?_
        exact h2 r hr x y hx hy ox oy
      · rw [s2]
        exact (w2 r hr).2
  obtain ⟨t4, p4, q4, w4⟩ := mult_glob h.square dbg rfl h.fits k.cs_len k.bounds (klc := fun r => (R r.col).k_lc) k.klc (k.blocks h hb) hev
  obtain ⟨c4, r4, s4, k4⟩ := Runs.emb (embMul_ok jB) p4
  have k4 := k4 _ q4
  have ev4 : ∀ r ∈ P.ranks, (c4.st r).r1.evals = evOf (r1Cfg M (R 0) d1 z1) (n1 + n2) (c1.st r).r1.evals (fun _ => True) := fun r hr => by
    rw [s4]
    show (c3.st r).r1.evals = _
    rw [s3 r hr]
    show (c2.st r).r1.evals = _
    rw [s2]
    exact (w2 r hr).1
  have ev5 : ∀ r ∈ P.ranks, ∀ e < n1 + n2, (c4.st r).r1.evals e = eigOf (r1Cfg M (R 0) d1 z1) e := fun r hr e he => by
    rw [ev4 r hr]
    exact if_pos ⟨he, trivial⟩
  -- the order
  obtain ⟨c5, r5, k5, s5⟩ := Runs.locals_ex (V := MgMsg) P.ranks_nodup k4
    (fun r => [fun st => finalSort (n1 + n2) (R 0) st])
    (fun r s => s = { c4.st r with i1 := i1 })
    (fun r hr => ⟨{ c4.st r with i1 := i1 }, by
      have e : finalSort (n1 + n2) (R 0) (c4.st r) = some { c4.st r with i1 := i1 } := by
        unfold finalSort
        have : (List.range (n1 + n2)).map (c4.st r).r1.evals = (List.range (n1 + n2)).map (eigOf (r1Cfg M (R 0) d1 z1)) :=
          List.map_congr_left fun e he => ev5 r hr e (List.mem_range.1 he)
        rw [this, hi1]
        rfl
      simp [runLocs, e], rfl⟩)
  refine ⟨c5, ?_, k5, fun r hr => ?_⟩
  · refine (((((r1.append r2).append r3).append r4).append r5)).congr fun r => ?_
    by_cases hr : r ∈ P.ranks
    · have hr' : r ∈ (subP P (ib * nb) (n1 + n2)).ranks := hr
      simp only [if_pos hr, if_pos hr']
      rw [k.prog h dbg (av r) jB jM hr]
      rfl
    · have hr' : r ∉ (subP P (ib * nb) (n1 + n2)).ranks := hr
      simp only [if_neg hr, if_neg hr']
      simp [Instr.embL]
  · rw [s5 r hr]
    refine ⟨ev5 r hr, rfl, ?_⟩
    show HoldsLoc P r (c4.st r).ev.e0 _
    rw [s4]
    exact (w4 r hr).1

end
end DistMerge
end DLAF
