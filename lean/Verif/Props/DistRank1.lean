import Verif.Lemmas.DistRank1Phases
import Verif.Props.Rank1
import Verif.Props.DistPartition
/-!
# C68: the distributed solver of the rank-one update problem

All theorems: for every grid, every distribution of rows and columns (tile sizes, source ranks, offsets), every order and every number of non-deflated columns, of workers and of
available workers per process, and every schedule of the processes.
-/
namespace DLAF.C68
open DLAF DLAF.DistR1 DLAF.C34

/-- What the processes must hold in the end.  `(lam a, U_a)`, `a < k`, are the eigenpairs of `diag(d) + rho z zᵀ`, eigenvalues ascending and eigenvectors orthonormal.  Every process has
the eigenvalue of every column `e`, which is `lam (i6 e)`, or `d (i6 e)` if the column is deflated; the local elements are the entries of the eigenvectors where row and column are not
deflated, and unchanged elsewhere. -/
def Solved (P : Params2) (g : DR1Cfg) (n : Nat) (st0 st : Coord2 → DR1St) : Prop :=
  ∃ (U : Matrix (Fin g.k) (Fin g.k) ℝ) (lam : Fin g.k → ℝ),
    U.transpose * U = 1 ∧ rank1M g.k g.d g.z g.rho * U = U * Matrix.diagonal lam ∧ (∀ a b, a < b → lam a < lam b) ∧
    ∀ r ∈ P.ranks,
      (∀ e < n, (∀ a : Fin g.k, g.i6[e]? = some a.val → (st r).evals e = lam a) ∧ ∀ a, g.k ≤ a → g.i6[e]? = some a → (st r).evals e = g.d a) ∧
      (∀ x < localColumns P.row r.row, ∀ y < localColumns P.col r.col,
        (∀ a b : Fin g.k, placeRow P g.i4 r.row x = a → placeCol P g.i6 r.col y = b → (st r).q x y = U a b) ∧
        (g.k ≤ placeRow P g.i4 r.row x ∨ g.k ≤ placeCol P g.i6 r.col y → (st r).q x y = (st0 r).q x y)) ∧
      ∀ x y, localColumns P.row r.row ≤ x ∨ localColumns P.col r.col ≤ y → (st r).q x y = (st0 r).q x y

section
variable {P : Params2} {g : DR1Cfg} {n : Nat} {klc : Int → Nat} (hf : Rank1Fits P n g.k g.i4 g.i6 g.i2 klc)
include hf

/-- C68: no schedule aborts or deadlocks, and all end with the eigenpairs, if the index vectors fit, `d` is ascending, `z` has no zeros and `rho > 0` (these not needed if `k ≤ 1`), and
the deflated rows of the non-deflated columns are zero at the start (the caller sets all of `evecs` to zero). -/
theorem C68_solved (h4 : Laed4Spec g.laed4) (hin : 2 ≤ g.k → SecularInput g.k g.d g.z g.rho) (avail : Coord2 → Nat) (hav : ∀ r ∈ P.ranks, 0 < avail r) (st0 : Coord2 → DR1St)
    (hz : ∀ r ∈ P.ranks, ∀ x < localColumns P.row r.row, ∀ y < klc r.col, g.k ≤ placeRow P g.i4 r.row x → (st0 r).q x y = 0) :
    AlwaysEnds (Conf.init (fun r => if r ∈ P.ranks then program g (P.on r) n (klc r.col) (avail r) else []) st0) (Solved P g n st0) := by
  obtain ⟨N, f, hd, hq, hall⟩ := run_all hf h4 hin hav hz
  refine ⟨N, f, hd, ?_, hall⟩
  obtain ⟨u1, u2⟩ := rank1_matrix (vec_pairs h4 hin)
  refine ⟨_, fun a => lamOf g a, u1, u2, fun a b hab => lam_mono h4 hin a b hab b.2, fun r hr => ?_⟩
  obtain ⟨e1, e2⟩ := hq r hr
  obtain ⟨h0, h1⟩ := col_ok hr
  obtain ⟨hle, hsp⟩ := hf.split r.col h0 h1
  refine ⟨fun e he => ⟨fun a ha => ?_, fun a ha ha' => ?_⟩, fun x hx y hy => ⟨fun a b ha hb => ?_, fun h => ?_⟩, fun x y h => ?_⟩
  · rw [e1]
    unfold evOf eigOf
    rw [if_pos ⟨he, trivial⟩, getD_of_get ha, if_pos a.2]
  · rw [e1]
    unfold evOf eigOf
    rw [if_pos ⟨he, trivial⟩, getD_of_get ha', if_neg (by omega)]
  · have hb' : placeCol P g.i6 r.col y < g.k := by rw [hb]; exact b.2
    rw [e2]
    unfold qOf
    rw [if_pos ⟨(hsp y hy).2 hb', hx, by rw [ha]; exact a.2⟩, ha, hb]
    rfl
  · rw [e2]
    unfold qOf
    rw [if_neg]
    rintro ⟨z1, _, z2⟩
    have : placeCol P g.i6 r.col y < g.k := (hsp y hy).1 z1
    omega
  · rw [e2]
    unfold qOf
    rw [if_neg]
    rintro ⟨z1, z2, _⟩
    omega

omit hf in
theorem sigs_allReduce (c ch : Chan) (grid : Int) (op : List ℝ → ℝ) (len : Nat) (get : DR1St → Nat → ℝ) (put : DR1St → (Nat → ℝ) → DR1St) :
    sigs c (allReduce ch grid op len get put) = if ch = c then [.allReduce] else [] := by
  simp [allReduce, sigs]

omit hf in
/-- C68: all members of a communicator do the same collectives in the same order. -/
theorem C68_same_collectives (avail : Coord2 → Nat) : SameCollectives P.ranks fun r => program g (P.on r) n (klc r.col) (avail r) := by
  intro c r hr s hs hcr hcs
  have key : ∀ r ∈ P.ranks, sigs c (program g (P.on r) n (klc r.col) (avail r)) =
      (if 1 < P.col.grid then (irange 0 P.col.dist.nrTiles).flatMap fun t => if Chan.row r.row = c then [Sig.bcast (P.col.dist.rank_global_tile t)] else [] else []) ++
      if g.k ≤ 2 then [] else
      (if 1 < P.col.grid then (if Chan.row r.row = c then [.allReduce] else []) else []) ++ if 1 < P.row.grid then (if Chan.col r.col = c then [.allReduce] else []) else [] := by
    intro r _
    have hb : ∀ t, sigs c (bcastEval (P.on r) t) = if Chan.row r.row = c then [Sig.bcast (P.col.dist.rank_global_tile t)] else [] := by
      intro t
      unfold bcastEval
      dsimp only
      split
      · exact sigs_bcastSend _ _ _ _
      · exact sigs_bcastRecv _ _ _ _
    have z1 : sigs c (if 1 < (P.on r).col.grid then (irange 0 (P.on r).col.nrTiles).flatMap (bcastEval (P.on r)) else []) =
        if 1 < P.col.grid then (irange 0 P.col.dist.nrTiles).flatMap fun t => if Chan.row r.row = c then [Sig.bcast (P.col.dist.rank_global_tile t)] else [] else [] := by
      by_cases hg : 1 < P.col.grid
      · rw [if_pos (show 1 < (P.on r).col.grid from hg), if_pos hg, sigs_flatMap]
        simp only [hb]
        rfl
      · rw [if_neg (show ¬ 1 < (P.on r).col.grid from hg), if_neg hg]
        rfl
    have z2 : ∀ op len get put, sigs c (if 1 < (P.on r).col.grid then allReduce (.row (P.on r).row.rank) (P.on r).col.grid op len get put else []) =
        if 1 < P.col.grid then (if Chan.row r.row = c then [.allReduce] else []) else [] := by
      intro op len get put
      by_cases hg : 1 < P.col.grid
      · rw [if_pos (show 1 < (P.on r).col.grid from hg), if_pos hg, sigs_allReduce]
        rfl
      · rw [if_neg (show ¬ 1 < (P.on r).col.grid from hg), if_neg hg]
        rfl
    have z3 : ∀ op len get put, sigs c (if 1 < (P.on r).row.grid then allReduce (.col (P.on r).col.rank) (P.on r).row.grid op len get put else []) =
        if 1 < P.row.grid then (if Chan.col r.col = c then [.allReduce] else []) else [] := by
      intro op len get put
      by_cases hg : 1 < P.row.grid
      · rw [if_pos (show 1 < (P.on r).row.grid from hg), if_pos hg, sigs_allReduce]
        rfl
      · rw [if_neg (show ¬ 1 < (P.on r).row.grid from hg), if_neg hg]
        rfl
    have zl : ∀ f : DR1St → Option DR1St, sigs c ([.loc f] : List (Instr DR1St Msg)) = [] := fun f => rfl
    unfold program
    dsimp only
    rw [sigs_append, sigs_append, zl, z1, List.nil_append]
    congr 1
    by_cases hk : g.k ≤ 2
    · rw [if_pos hk, if_pos hk]
      rfl
    · rw [if_neg hk, if_neg hk]
      simp only [sigs_append, zl, z2, z3, List.nil_append, List.append_nil]
  rw [key r hr, key s hs]
  have e1 : (Chan.row r.row = c) = (Chan.row s.row = c) := by
    cases c with
    | row i =>
      have a : r.row = i := by simpa [Chan.has] using hcr
      have b : s.row = i := by simpa [Chan.has] using hcs
      rw [a, b]
    | _ => simp
  have e2 : (Chan.col r.col = c) = (Chan.col s.col = c) := by
    cases c with
    | col i =>
      have a : r.col = i := by simpa [Chan.has] using hcr
      have b : s.col = i := by simpa [Chan.has] using hcs
      rw [a, b]
    | _ => simp
  simp only [e1, e2]

end

/-- C68: the index vectors of the deflation partition (C67) fit, with `k_lc` of every process column. -/
theorem C68_partition_fits {T : Type} [LinearOrder T] {P : Params2} {n : Nat} {types : List ColType} {evals : List T} {perm out1 out2 : List Nat}
    (hrow : P.row.Valid) (hcol : P.col.Valid) (hrn : P.row.size = n) (hn : P.col.size = n) (h1 : types.length = n) (h2 : evals.length = n) (h3 : out1.length = n)
    (h4 : out2.length = n) (hperm : IsPerm n perm) {R : Int → DistPart.Result}
    (h : ∀ r, 0 ≤ r → r < P.col.grid → DistPart.stablePartition (P.col.onRank r).dist types evals perm out1 out2 = some (R r)) :
    Rank1Fits P n (R 0).k (R 0).i4 (R 0).i6 (R 0).i2 fun r => (R r).k_lc := by
  have hg0 : 0 < P.col.grid := hcol.2.2.2.2.1
  have hp0 := hcol.onRank (Int.le_refl 0) hg0
  have m := C67.C67_maps hp0 hn h1 h2 h3 h4 hperm (h 0 (Int.le_refl 0) hg0)
  have c := C67.C67_counts hp0 hn h1 h2 h3 h4 hperm (h 0 (Int.le_refl 0) hg0)
  refine ⟨hrow, hcol, hrn, hn, by rw [c.1]; omega, m.1.1, m.2.1.1, m.2.2.2, fun r r0 r1 => ?_⟩
  have hr0 : (R r).k = (R 0).k ∧ (R r).i6 = (R 0).i6 := by
    obtain ⟨a, b, e⟩ := C67.C67_rank_independent hp0 hn h1 h2 h3 h4 hperm (h 0 (Int.le_refl 0) hg0) (q := r) r0 r1
    have := h r r0 r1
    have e' : ((P.col.onRank 0).onRank r).dist = (P.col.onRank r).dist := rfl
    rw [e', this] at e
    rw [Option.some.inj e]
    exact ⟨rfl, rfl⟩
  rw [← hr0.1, ← hr0.2]
  obtain ⟨s, defl, cnt, c, i5, cs, u, l, d, i2, i4, i2', e, a1, a2, a3, a4, _, a6, _, _, _, _, _, _, _, _, a7⟩ :=
    DistPart.coreK (hcol.onRank r0 r1) hn h1 h2 h3 h4 hperm
  have hR := Option.some.inj ((h r r0 r1).symm.trans e)
  rw [hR]
  dsimp only
  have hrk : (P.col.onRank r).dist.rank = r := rfl
  have hlc : ∀ t, localColumns (P.col.onRank r) t = localColumns P.col t := fun _ => rfl
  have hcc : ∀ t l, localColumn (P.col.onRank r) t l = localColumn P.col t l := fun _ _ => rfl
  have hlen := DistPart.order_length (hcol.onRank r0 r1) hn h1 a1.2.2.2 (r := r) r0 r1
  rw [hlc] at hlen
  have hA : DistPart.sums cnt r (ev_sort_order .Deflated) = (typeOnRank (P.col.onRank r) types r .UpperHalf s ++ typeOnRank (P.col.onRank r) types r .Dense s ++
      typeOnRank (P.col.onRank r) types r .LowerHalf s).length := by
    rw [a2 r, List.length_append, List.length_append]
  rw [hrk, hA]
  have a3' := a3 r r0 r1
  unfold localOrder at hlen a3'
  generalize hLA : typeOnRank (P.col.onRank r) types r .UpperHalf s ++ typeOnRank (P.col.onRank r) types r .Dense s ++ typeOnRank (P.col.onRank r) types r .LowerHalf s = A at hlen a3'
  rw [List.length_append] at hlen
  have hmem : ∀ x ∈ A, types[x]? ≠ some .Deflated := by
    rw [← hLA]
    intro x hm
    simp only [typeOnRank, List.mem_append, List.mem_filter, decide_eq_true_eq] at hm
    rcases hm with (z | z) | z <;> rw [z.2.1] <;> decide
  refine ⟨by omega, fun y hy => ?_⟩
  obtain ⟨_, v2, _⟩ := DistPart.col_spec hcol hn r0 r1 hy
  obtain ⟨a, b1, b2⟩ := a7 _ v2
  rw [getD_of_get b1, b2, a6.2, ← hcc, a3' y hy]
  constructor
  · intro hlt
    rw [List.getElem?_append_left hlt, List.getElem?_eq_getElem hlt, Option.bind_some]
    exact hmem _ (List.getElem_mem hlt)
  · intro hne
    by_contra hge
    refine hne ?_
    rw [List.getElem?_append_right (by omega)]
    have hlt : y - A.length < (typeOnRank (P.col.onRank r) types r .Deflated s).length := by omega
    rw [List.getElem?_eq_getElem hlt, Option.bind_some]
    have hm := List.getElem_mem hlt
    simp only [typeOnRank, List.mem_filter, decide_eq_true_eq] at hm
    exact hm.2.1

/-! The columns of the example of C67 on a 2 × 2 grid: 9 columns, 6 not deflated. -/
namespace Ex68
def pp : Params2 := ⟨⟨9, 3, 3, 2, 0, 1, 0⟩, ⟨9, 3, 3, 2, 0, 0, 0⟩⟩
def i4 : List Nat := [0, 1, 4, 2, 3, 7, 5, 6, 8]
def i6 : List Nat := [0, 1, 2, 3, 4, 7, 5, 6, 8]
def i2 : List Nat := [0, 1, 2, 3, 4, 6, 7, 5, 8]

def klc (r : Int) : Nat := if r = 0 then 4 else 2
def res (r : Int) : DistPart.Result := ⟨6, klc r, [1, 5, 7], [0, 1, 3, 4, 6, 7, 2, 5, 8], [0, 1, 6, 3, 4, 5, 7, 2, 8], if r = 0 then [0, 1, 3, 4, 2, 5] else [0, 1, 2], i4, i6, i2⟩
noncomputable def cfg : DR1Cfg := ⟨laed4Std, true, 6, 2, fun i => i, fun _ => 1, i4, i6, i2⟩
def st0 : Coord2 → DR1St := fun _ => ⟨fun _ => 5, fun _ _ => 0, fun _ _ => 7, fun _ => 7, fun _ => 7⟩

theorem fits : Rank1Fits pp 9 6 i4 i6 i2 klc := by
  refine C68_partition_fits (n := 9) (types := C67.Ex67.types) (evals := List.range 9) (perm := List.range 9) (out1 := List.replicate 9 0) (out2 := List.replicate 9 7)
    (P := pp) (R := res) (by decide) (by decide) rfl rfl rfl rfl rfl rfl (List.Perm.refl _) fun r h0 h1 => ?_
  have : r = 0 ∨ r = 1 := by
    have : r < 2 := h1
    omega
  rcases this with rfl | rfl <;> decide +kernel

example : AlwaysEnds (Conf.init (fun r => if r ∈ pp.ranks then program cfg (pp.on r) 9 (klc r.col) 3 else []) st0) (Solved pp cfg 9 st0) :=
  C68_solved (g := cfg) fits laed4Std_spec (fun _ => ⟨show (0 : ℝ) < 2 by norm_num, fun _ _ hij _ => Nat.cast_lt.2 hij, fun _ _ => one_ne_zero⟩) (fun _ => 3) (fun _ _ => by omega) st0
    (fun _ _ _ _ _ _ _ => rfl)
end Ex68
end DLAF.C68
