import Verif.Lemmas.DistRedLoop
/- C64: distributed reduction of a Hermitian matrix to band form. -/
namespace DLAF
open scoped Classical
variable {K : Type*} [RCLike K] {P : Params2} {n nb band pipelines : Nat}

/-- C64.  `A`, Hermitian of order `n` and given by its lower triangle with a real diagonal, is distributed over any grid with any source ranks and tile size, without offset; the
band width is at least 2 and divides the tile size; every process may have its own number of workers and contents of the workspaces; the communicators have at least two pipelines.
Then under every schedule of the processes the call ends without abort or deadlock, all schedules in the same state.  In that state every process holds its tiles of a matrix `A'`
and of scaling factors `taus'` such that, with `Q = H_0 H_1 ... H_{n-band-2}` the product of the reflectors stored below the `band`-th subdiagonal of `A'`, `Q` is unitary, the
Hermitian matrix given by the band of `A'` is `Qᴴ A Q`, and the strictly upper triangle is unchanged. -/
theorem C64_reduction_to_band_distributed (hV : SquareDist P) (hn : P.row.size = n) (hnb : P.row.tile = nb) (hb : 2 ≤ band) (hd : nb % band = 0) (hpl : 2 ≤ pipelines)
    {E : Coord2 → RedEnv K} (hP : ∀ r, 0 < (E r).availP) (hT : ∀ r, 0 < (E r).availT) {sb : K → Bool} (hgs : GoodSign sb) (hsb : ∀ r, (E r).signbit = sb)
    (A : Elems K) (taus : Nat → K) (hA : ∀ x < n, star (A x x) = A x x) {st : Coord2 → RbSt K}
    (ha : ∀ r ∈ P.ranks, HoldsElems P r A (st r).a) (ht : ∀ r ∈ P.ranks, HoldsVec (tausParams P.col band) r.col taus (st r).tau) :
    ∃ (A' : Elems K) (taus' : Nat → K),
      (reflectorProd n (storedRefl band A') taus' (n - band - 1)).conjTranspose * reflectorProd n (storedRefl band A') taus' (n - band - 1) = 1 ∧
      hermM n (bandLow band n A') =
        (reflectorProd n (storedRefl band A') taus' (n - band - 1)).conjTranspose * hermM n A * reflectorProd n (storedRefl band A') taus' (n - band - 1) ∧
      (∀ x y, x < y → A' x y = A x y) ∧
      AlwaysEnds (Conf.init (fun r => if r ∈ P.ranks then DistRed.program pipelines n nb band (E r) (P.on r) ((tausParams P.col band).onRank r.col).dist else []) st) fun fin =>
        ∀ r ∈ P.ranks, HoldsElems P r A' (fin r).a ∧ HoldsVec (tausParams P.col band) r.col taus' (fin r).tau := by
  have a1 : Ax P.row n nb := ⟨hV.row, hn, hnb⟩
  have a2 : Ax P.col n nb := ⟨hV.col, by rw [← hV.size]; exact hn, by rw [← hV.tile]; exact hnb⟩
  obtain ⟨g', A', T', r1, s1, k2, k3, k4, k5⟩ := DistRed.program_runs a1 a2 hb hd hpl (DistRed.tauInj a2) hP hT hgs hsb (Clean.init P.ranks st)
    (fun r hr => ⟨WinAt.of_holds a1 a2 hr (ha r hr), TausAt.of_holds a2 (ht r hr)⟩) hA
  exact ⟨A', T', k2, k3, fun x y hxy => k4 x y (by omega), r1.alwaysEnds fun r hr => ⟨WinAt.holds a1 a2 hr (s1 r hr).win, TausAt.holds a2 (s1 r hr).tau⟩⟩

/-- C64.  With a band width below two, one that does not divide the tile size, or a grid with a single pipeline per communicator, every process aborts before it
does anything. -/
theorem C64_bad_band_refused (h : band < 2 ∨ nb % band ≠ 0 ∨ pipelines < 2) (E : Coord2 → RedEnv K) (dt : Coord2 → Dist1) (st : Coord2 → RbSt K) :
    ∀ r, Conf.step (Conf.init (fun r => if r ∈ P.ranks then DistRed.program pipelines n nb band (E r) (P.on r) (dt r) else []) st) r = none := by
  intro r
  unfold Conf.step Conf.init
  dsimp only
  by_cases hr : r ∈ P.ranks
  · rw [if_pos hr]
    unfold DistRed.program
    rw [List.singleton_append]
    dsimp only
    have hc : ¬ (2 ≤ band ∧ 2 ≤ pipelines ∧ nb % band = 0) := by
      rintro ⟨h1, h2, h3⟩
      rcases h with h | h | h <;> omega
    rw [if_neg hc]
    rfl
  · rw [if_neg hr]

/- Non-vacuity: order 5, band width 2 (two reflectors), tiles of 2 x 2 on a 2 x 3 grid with source rank (1, 2), over `ℝ`; the result is not the input: some scaling factor is not zero. -/
section example_
private def exRP : Params2 := ⟨⟨5, 2, 2, 2, 0, 1, 0⟩, ⟨5, 2, 2, 3, 0, 2, 0⟩⟩
private noncomputable def exE (r : Coord2) : RedEnv ℝ := ⟨1 + r.row.toNat, 2 + r.col.toNat, fun x => decide (x < 0), fun _ _ _ => 7⟩
private def exA : Elems ℝ := fun x y => if x + y = 3 ∨ x = y then 1 else if x = 2 ∧ y = 0 then 3 else if x = 3 ∧ y = 0 then 4 else 0

private theorem exSign : GoodSign (fun x : ℝ => decide (x < 0)) := by
  intro x
  simp only [RCLike.re_to_real, decide_eq_false_iff_not, decide_eq_true_eq]
  exact ⟨fun h => by linarith, fun h => h⟩

private def exLoc (P : Params2) (M : Elems ℝ) (r : Coord2) : Coord2 → Blk ℝ := fun l =>
  ⟨P.row.tileSizes ((P.at' .Row r).dist.global_tile_from_local_tile l.row).toNat, P.col.tileSizes ((P.at' .Col r).dist.global_tile_from_local_tile l.col).toNat,
    fun x y => M (((P.at' .Row r).dist.global_tile_from_local_tile l.row).toNat * P.row.tile.toNat + x)
      (((P.at' .Col r).dist.global_tile_from_local_tile l.col).toNat * P.col.tile.toNat + y)⟩

private def exTau (p : Params) (v : Nat → ℝ) (q : Int) : Int → Blk ℝ := fun l =>
  ⟨p.tileSizes ((p.onRank q).dist.global_tile_from_local_tile l).toNat, 1,
    fun x _ => v (((p.onRank q).dist.global_tile_from_local_tile l).toNat * p.tile.toNat + x)⟩

private theorem exLoc_holds {P : Params2} (h1 : Plain P.row) (h2 : Plain P.col) {r : Coord2} (hr : r ∈ P.ranks) (M : Elems ℝ) : HoldsElems P r M (exLoc P M r) := by
  intro i _ j _ o1 o2
  have a1 : Plain (P.at' .Row r) := Params2.plain (c := .Row) h1 hr
  have a2 : Plain (P.at' .Col r) := Params2.plain (c := .Col) h2 hr
  have e1 : (P.at' .Row r).dist.global_tile_from_local_tile ((P.at' .Row r).dist.local_tile_from_global_tile i) = i := a1.gl_lc (by omega) o1
  have e2 : (P.at' .Col r).dist.global_tile_from_local_tile ((P.at' .Col r).dist.local_tile_from_global_tile j) = j := a2.gl_lc (by omega) o2
  unfold exLoc
  dsimp only
  rw [e1, e2, Int.toNat_natCast, Int.toNat_natCast]
  exact ⟨rfl, rfl, fun _ _ _ _ => rfl⟩

private theorem exTau_holds {p : Params} (h : Plain p) {q : Int} (h0 : 0 ≤ q) (h1 : q < p.grid) (v : Nat → ℝ) : HoldsVec p q v (exTau p v q) := by
  intro i _ o
  have a : Plain (p.onRank q) := h.onRank h0 h1
  have e : (p.onRank q).dist.global_tile_from_local_tile ((p.onRank q).dist.local_tile_from_global_tile i) = i := a.gl_lc (by omega) o
  unfold exTau
  dsimp only
  rw [e, Int.toNat_natCast]
  exact ⟨rfl, rfl, fun _ _ => rfl⟩

private def exSt (r : Coord2) : RbSt ℝ :=
  ⟨exLoc exRP exA r, exTau (tausParams exRP.col 2) (fun _ => 0) r.col, 3, fun _ => none, fun _ => none, fun _ => none, fun _ => none, fun _ => none, fun _ => none,
    fun _ => none, fun _ => none, fun _ => none⟩

example : ∃ (A' : Elems ℝ) (taus' : Nat → ℝ), (taus' 0 ≠ 0 ∨ taus' 1 ≠ 0) ∧
    hermM 5 (bandLow 2 5 A') =
      (reflectorProd 5 (storedRefl 2 A') taus' 2).conjTranspose * hermM 5 exA * reflectorProd 5 (storedRefl 2 A') taus' 2 ∧
    AlwaysEnds (Conf.init (fun r => if r ∈ exRP.ranks then DistRed.program 3 5 2 2 (exE r) (exRP.on r) ((tausParams exRP.col 2).onRank r.col).dist else []) exSt) fun fin =>
      ∀ r ∈ exRP.ranks, HoldsElems exRP r A' (fin r).a ∧ HoldsVec (tausParams exRP.col 2) r.col taus' (fin r).tau := by
  obtain ⟨A', taus', h1, h2, h3, h4⟩ := C64_reduction_to_band_distributed (P := exRP) (n := 5) (nb := 2) (band := 2) (pipelines := 3) (by decide) rfl rfl (by decide)
    (by decide) (by decide) (E := exE) (fun r => by unfold exE; dsimp only; omega) (fun r => by unfold exE; dsimp only; omega) exSign (fun _ => rfl) exA (fun _ => 0)
    (fun x _ => by simp) (st := exSt) (fun r h => exLoc_holds (by decide) (by decide) h _)
    (fun r h => exTau_holds (p := tausParams exRP.col 2) (by decide) (Params2.mem_ranks.1 h .Col).1 (Params2.mem_ranks.1 h .Col).2 _)
  refine ⟨A', taus', ?_, h2, h4⟩
  by_contra hc
  push Not at hc
  have hq : reflectorProd 5 (storedRefl 2 A') taus' (5 - 2 - 1) = 1 := by
    simp [reflectorProd, reflector, hc.1, hc.2, List.range_succ]
  rw [hq, Matrix.conjTranspose_one, Matrix.one_mul, Matrix.mul_one] at h2
  have := congrFun (congrFun h2 ⟨3, by omega⟩) ⟨0, by omega⟩
  simp [hermM, lowE, bandLow, exA] at this
end example_

end DLAF
