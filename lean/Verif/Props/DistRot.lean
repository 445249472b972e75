import Verif.Spec.Rotations
import Verif.Spec.DistHolds
import Verif.Lemmas.DistRotProgram
import Verif.Lemmas.DeflateRot
import Verif.Model.DivConq
import Verif.Props.Layout
/- C65: distributed Givens rotations. -/
namespace DLAF
open scoped Classical

namespace DistRot

theorem givensM_eq (len : Nat) (r : Rot) : givensM len r = toM len len (rotE r.i r.j r.c r.s) := by
  ext x y
  show givensM len r x y = rotE r.i r.j r.c r.s x y
  unfold givensM rotE
  simp only [Fin.ext_iff]

theorem fold_block (o len : Nat) (rots : List Rot) : ∀ (M : Elems ℝ), ∀ x y,
    rots.foldl (fun M q => rotG o len q M) M x y =
      if (o ≤ x ∧ x < o + len) ∧ ∃ z, y = o + z then applyRots len rots (fun u v => M (o + u) (o + v)) (x - o) (y - o) else M x y := by
  induction rots with
  | nil =>
    intro M x y
    by_cases h : (o ≤ x ∧ x < o + len) ∧ ∃ z, y = o + z
    · rw [if_pos h]
      obtain ⟨⟨h1, h2⟩, z, rfl⟩ := h
      show M x (o + z) = M (o + (x - o)) (o + (o + z - o))
      congr 1 <;> omega
    · rw [if_neg h]; rfl
  | cons q rots ih =>
    intro M x y
    rw [List.foldl_cons, ih]
    by_cases h : (o ≤ x ∧ x < o + len) ∧ ∃ z, y = o + z
    · rw [if_pos h, if_pos h]
      show applyRots len rots _ _ _ = applyRots len rots _ _ _
      obtain ⟨⟨h1, h2⟩, z, rfl⟩ := h
      -- only the rows of the block matter
      have key : ∀ (rots : List Rot) (A B : Elems ℝ), (∀ u < len, ∀ v, A u v = B u v) → ∀ u < len, ∀ v, applyRots len rots A u v = applyRots len rots B u v := by
        intro rots
        induction rots with
        | nil => intro A B hAB; exact hAB
        | cons q rots ih =>
          intro A B hAB
          refine ih _ _ fun u hu v => ?_
          unfold rotCols
          beta_reduce
          rw [if_pos hu, if_pos hu, hAB u hu, hAB u hu, hAB u hu]
      refine key rots _ _ (fun u hu v => ?_) _ (by omega) _
      unfold rotG rotCols
      beta_reduce
      rw [if_pos ⟨by omega, by omega⟩, if_pos hu]
      have a1 : (o + v = o + q.i) ↔ v = q.i := by omega
      have a2 : (o + v = o + q.j) ↔ v = q.j := by omega
      by_cases c1 : v = q.i
      · rw [if_pos (a1.2 c1), if_pos c1]
      · by_cases c2 : v = q.j
        · rw [if_neg (fun z => c1 (a1.1 z)), if_neg c1, if_pos (a2.2 c2), if_pos c2]
        · rw [if_neg (fun z => c1 (a1.1 z)), if_neg c1, if_neg (fun z => c2 (a2.1 z)), if_neg c2]
    · rw [if_neg h, if_neg h]
      unfold rotG
      by_cases hx : o ≤ x ∧ x < o + len
      · rw [if_pos hx, if_neg (fun z => h ⟨hx, _, z⟩), if_neg (fun z => h ⟨hx, _, z⟩)]
      · rw [if_neg hx]

theorem applyRots_id {len : Nat} : ∀ (rots : List Rot), (∀ q ∈ rots, q.i < len ∧ q.j < len) → ∀ (A : Elems ℝ) (u v : Nat), len ≤ v → applyRots len rots A u v = A u v
  | [], _, _, _, _, _ => rfl
  | q :: rots, h, A, u, v, hv => by
    have := applyRots_id rots (fun q z => h q (List.mem_cons_of_mem _ z)) (rotCols len q A) u v hv
    refine this.trans ?_
    obtain ⟨h1, h2⟩ := h q (List.mem_cons_self ..)
    unfold rotCols
    rw [if_neg (show ¬ v = q.i by omega), if_neg (show ¬ v = q.j by omega), ite_self]

theorem fold_put {o len : Nat} {rots : List Rot} (hq : ∀ q ∈ rots, q.i < len ∧ q.j < len) (M : Elems ℝ) :
    rots.foldl (fun M q => rotG o len q M) M = putE M o len (applyRots len rots (shE M o)) := by
  funext x y
  rw [fold_block]
  unfold putE shE
  by_cases hx : o ≤ x ∧ x < o + len
  · by_cases hy : o ≤ y ∧ y < o + len
    · rw [if_pos ⟨hx, y - o, by omega⟩, if_pos ⟨hx, hy⟩]
    · by_cases hz : ∃ z, y = o + z
      · rw [if_pos ⟨hx, hz⟩, if_neg (fun z => hy z.2)]
        obtain ⟨z, rfl⟩ := hz
        rw [applyRots_id rots hq _ _ _ (by omega)]
        congr 1 <;> omega
      · rw [if_neg (fun c => hz c.2), if_neg (fun z => hy z.2)]
  · rw [if_neg (fun z => hx z.1), if_neg (fun z => hx z.1)]

theorem toM_applyRots {len : Nat} : ∀ (rots : List Rot), (∀ q ∈ rots, q.i < len ∧ q.j < len ∧ q.i ≠ q.j) → ∀ (A : Elems ℝ),
    toM len len (applyRots len rots A) = toM len len A * (rots.map (givensM len)).prod
  | [], _, A => by simp [applyRots]
  | q :: rots, h, A => by
    obtain ⟨h1, h2, h3⟩ := h q (List.mem_cons_self ..)
    have := toM_applyRots rots (fun q z => h q (List.mem_cons_of_mem _ z)) (rotCols len q A)
    refine this.trans ?_
    rw [List.map_cons, List.prod_cons, ← Matrix.mul_assoc, givensM_eq, ← toM_rotCols h1 h2 h3]

end DistRot

section
variable {P : Params2} {n nb ib ie : Nat}

/-- C65.  The distributed application of Givens rotations to the diagonal block of the tiles `[ib, ie)`: every schedule ends, and then the processes hold the
matrix whose diagonal block is the old one times the product of the rotations, in the order given, and whose other elements are unchanged. -/
theorem C65_rotations_distributed (hP : SquareDist P) (hn : P.row.size = n) (hb : P.row.tile = nb) (h1 : ib ≤ ie) (h2 : ie ≤ P.nt) {rots : List Rot}
    (hq : ∀ q ∈ rots, q.i < min n (ie * nb) - ib * nb ∧ q.j < min n (ie * nb) - ib * nb ∧ q.i ≠ q.j) (Q : Elems ℝ) {st : Coord2 → RotSt}
    (hQ : ∀ r ∈ P.ranks, HoldsElems P r Q (st r).a) :
    ∃ Q' : Elems ℝ,
      diagBlock (ib * nb) (min n (ie * nb) - ib * nb) Q' = diagBlock (ib * nb) (min n (ie * nb) - ib * nb) Q * (rots.map (givensM _)).prod ∧
      (∀ x y, ¬ ((ib * nb ≤ x ∧ x < min n (ie * nb)) ∧ (ib * nb ≤ y ∧ y < min n (ie * nb))) → Q' x y = Q x y) ∧
      AlwaysEnds (Conf.init (fun r => if r ∈ P.ranks then DistRot.program (P.on r) ib ie rots else []) st) fun fin =>
        ∀ r ∈ P.ranks, HoldsElems P r Q' (fin r).a := by
  have a1 : Ax P.row n nb := ⟨hP.row, hn, hb⟩
  have a2 : Ax P.col n nb := ⟨hP.col, by rw [← hP.size]; exact hn, by rw [← hP.tile]; exact hb⟩
  have hw : ∀ r ∈ P.ranks, WinAt P n nb n nb r Q (st r).a := fun r hr => WinAt.of_holds a1 a2 hr (hQ r hr)
  obtain ⟨len, hlen⟩ : ∃ len, len = min n (ie * nb) - ib * nb := ⟨_, rfl⟩
  rw [← hlen] at hq ⊢
  by_cases hlt : ib < ie
  · have hnt : P.nt = (n + nb - 1) / nb := by unfold Params2.nt; rw [a1.nt, Int.toNat_natCast]
    have R : DistRot.Rng n nb ib ie len := ⟨hlt, (a1.lt_nt _).1 (by omega), hlen⟩
    have hbd := R.bounds
    obtain ⟨g', r1, c1, s1⟩ := DistRot.program_runs a1 a2 R rots hq (Clean.init P.ranks st) hw
    rw [DistRot.fold_put (fun q h => ⟨(hq q h).1, (hq q h).2.1⟩)] at s1
    refine ⟨_, ?_, ?_, r1.alwaysEnds fun r hr => WinAt.holds a1 a2 hr (s1 r hr)⟩
    · have := DistRot.toM_applyRots rots hq (shE Q (ib * nb))
      refine Eq.trans ?_ this
      ext x y
      show putE Q (ib * nb) len (applyRots len rots (shE Q (ib * nb))) (ib * nb + x) (ib * nb + y) = applyRots len rots (shE Q (ib * nb)) x y
      unfold putE
      rw [if_pos ⟨⟨by omega, by omega⟩, ⟨by omega, by omega⟩⟩]
      congr 1 <;> omega
    · intro x y hxy
      unfold putE
      rw [if_neg]
      rw [hbd.2.2.1]
      exact hxy
  · have he : ib = ie := by omega
    subst he
    have hl0 : len = 0 := by omega
    subst hl0
    obtain rfl : rots = [] := by
      cases rots with
      | nil => rfl
      | cons q _ => exact absurd (hq q (List.mem_cons_self ..)).1 (by omega)
    refine ⟨Q, by simp, fun _ _ _ => rfl, ?_⟩
    have e : (fun r => if r ∈ P.ranks then DistRot.program (P.on r) ib ib [] else []) = fun _ => [] := by
      funext r
      split
      · unfold DistRot.program
        dsimp only
        rw [if_neg (fun z => z.1 (Int.sub_self _))]
      · rfl
    rw [e]
    exact Runs.alwaysEnds (g' := ⟨st, fun _ _ => 0, fun _ _ _ => none⟩) (Runs.nil (fun _ => rfl) _) hQ

/-- C65.  The result is that of the local version on the whole matrix (the rotations of the divide and conquer solver, C52 and C53). -/
theorem C65_same_as_local (hP : SquareDist P) (hn : P.row.size = n) (hb : P.row.tile = nb) (h1 : ib < ie) (h2 : ie ≤ P.nt) {rots : List Rot}
    (hq : ∀ q ∈ rots, q.i < min n (ie * nb) - ib * nb ∧ q.j < min n (ie * nb) - ib * nb ∧ q.i ≠ q.j) (Q : Elems ℝ) {st : Coord2 → RotSt}
    (hQ : ∀ r ∈ P.ranks, HoldsElems P r Q (st r).a) :
    AlwaysEnds (Conf.init (fun r => if r ∈ P.ranks then DistRot.program (P.on r) ib ie rots else []) st) fun fin =>
      ∀ r ∈ P.ranks, HoldsElems P r (putE Q (ib * nb) (min n (ie * nb) - ib * nb) (applyRots (min n (ie * nb) - ib * nb) rots (shE Q (ib * nb)))) (fin r).a := by
  have a1 : Ax P.row n nb := ⟨hP.row, hn, hb⟩
  have a2 : Ax P.col n nb := ⟨hP.col, by rw [← hP.size]; exact hn, by rw [← hP.tile]; exact hb⟩
  have hw : ∀ r ∈ P.ranks, WinAt P n nb n nb r Q (st r).a := fun r hr => WinAt.of_holds a1 a2 hr (hQ r hr)
  have hnt : P.nt = (n + nb - 1) / nb := by unfold Params2.nt; rw [a1.nt, Int.toNat_natCast]
  have R : DistRot.Rng n nb ib ie (min n (ie * nb) - ib * nb) := ⟨h1, (a1.lt_nt _).1 (by omega), rfl⟩
  obtain ⟨g', r1, c1, s1⟩ := DistRot.program_runs a1 a2 R rots hq (Clean.init P.ranks st) hw
  rw [DistRot.fold_put (fun q h => ⟨(hq q h).1, (hq q h).2.1⟩)] at s1
  exact r1.alwaysEnds fun r hr => WinAt.holds a1 a2 hr (s1 r hr)

/-- C65.  The two processes of every pair make the same number of exchanges with each other; there is no other communication. -/
theorem C65_same_exchanges (hP : SquareDist P) (hn : P.row.size = n) (hb : P.row.tile = nb) (h1 : ib < ie) (h2 : ie ≤ P.nt) {rots : List Rot}
    (hq : ∀ q ∈ rots, q.i < min n (ie * nb) - ib * nb ∧ q.j < min n (ie * nb) - ib * nb ∧ q.i ≠ q.j) :
    SameCollectives P.ranks fun r => DistRot.program (P.on r) ib ie rots := by
  have a1 : Ax P.row n nb := ⟨hP.row, hn, hb⟩
  have a2 : Ax P.col n nb := ⟨hP.col, by rw [← hP.size]; exact hn, by rw [← hP.tile]; exact hb⟩
  have hnt : P.nt = (n + nb - 1) / nb := by unfold Params2.nt; rw [a1.nt, Int.toNat_natCast]
  have R : DistRot.Rng n nb ib ie (min n (ie * nb) - ib * nb) := ⟨h1, (a1.lt_nt _).1 (by omega), rfl⟩
  exact DistRot.program_sigs a1 a2 R hq

end

/-- C65.  In a matrix allocated with the column-major layout the local elements of a column follow each other in memory, across tiles: going `k` elements on from
the address of a local element gives the address of the element `k` rows below.  This is what the access through one pointer per column relies on. -/
theorem C65_columns_contiguous {p q : Params} (hp : p.Valid) (hq : q.Valid) {alignment : Int} {ld : LdSpec} {m : MatrixMem}
    (hm : setUp .ColMajor (dist2 p q) alignment ld = some m) {i j k : Int} (h : (dist2 p q).LocalElem i j) (h' : (dist2 p q).LocalElem (i + k) j) :
    ∃ a, m.elemAddr (dist2 p q) i j = some a ∧ m.elemAddr (dist2 p q) (i + k) j = some (a.1, a.2 + k) := by
  unfold setUp at hm
  split at hm
  · rename_i h0
    have h0 : p.dist.localSize = 0 ∨ q.dist.localSize = 0 := h0
    obtain ⟨⟨h1, h2⟩, h3, h4⟩ := h
    have h2 : i < p.dist.localSize := h2
    have h4 : j < q.dist.localSize := h4
    omega
  · unfold setUpColMajor at hm
    simp only [Option.bind_eq_some_iff] at hm
    obtain ⟨l, hl, hm⟩ := hm
    refine ⟨_, (colMajor_addr hp hq (compute_ld_some hl).1 hm h).1, ?_⟩
    rw [(colMajor_addr hp hq (compute_ld_some hl).1 hm h').1]
    dsimp only
    rw [show i + k + l * j = i + l * j + k by omega]

/-- C65, violation (finding F33).  The library can be configured (DLAF_DEFAULT_ALLOCATION_LAYOUT) to allocate matrices, among them the one the rotations are applied to, with the
layout Blocks or Tiles; then the element after the last row of a tile is not the one of the next row: here it is the first row of the next column. -/
theorem C65_other_layouts_not_contiguous : ∃ (p q : Params) (m m' : MatrixMem), Plain p ∧ Plain q ∧
    setUp .Tiles (dist2 p q) 1 .compact = some m ∧ setUp .Blocks (dist2 p q) 1 .compact = some m' ∧
    (dist2 p q).LocalElem 1 0 ∧ (dist2 p q).LocalElem 2 0 ∧
    m.elemAddr (dist2 p q) 1 0 = some (.tile 0 0, 1) ∧ m.elemAddr (dist2 p q) 2 0 = some (.tile 1 0, 0) ∧ m.elemAddr (dist2 p q) 0 1 = some (.tile 0 0, 2) ∧
    m'.elemAddr (dist2 p q) 1 0 = some (.block 0 0, 1) ∧ m'.elemAddr (dist2 p q) 2 0 = some (.block 0 1, 0) ∧ m'.elemAddr (dist2 p q) 0 1 = some (.block 0 0, 2) := by
  have h1 : ∃ m, setUp .Tiles (dist2 ⟨4, 2, 2, 1, 0, 0, 0⟩ ⟨4, 2, 2, 1, 0, 0, 0⟩) 1 .compact = some m := Option.isSome_iff_exists.1 (by decide)
  have h2 : ∃ m, setUp .Blocks (dist2 ⟨4, 2, 2, 1, 0, 0, 0⟩ ⟨4, 2, 2, 1, 0, 0, 0⟩) 1 .compact = some m := Option.isSome_iff_exists.1 (by decide +kernel)
  obtain ⟨m, hm⟩ := h1
  obtain ⟨m', hm'⟩ := h2
  have g : ∀ i j, m.elemAddr (dist2 ⟨4, 2, 2, 1, 0, 0, 0⟩ ⟨4, 2, 2, 1, 0, 0, 0⟩) i j =
      (setUp .Tiles (dist2 ⟨4, 2, 2, 1, 0, 0, 0⟩ ⟨4, 2, 2, 1, 0, 0, 0⟩) 1 .compact).bind (·.elemAddr (dist2 ⟨4, 2, 2, 1, 0, 0, 0⟩ ⟨4, 2, 2, 1, 0, 0, 0⟩) i j) := by
    intro i j; rw [hm]; rfl
  have g' : ∀ i j, m'.elemAddr (dist2 ⟨4, 2, 2, 1, 0, 0, 0⟩ ⟨4, 2, 2, 1, 0, 0, 0⟩) i j =
      (setUp .Blocks (dist2 ⟨4, 2, 2, 1, 0, 0, 0⟩ ⟨4, 2, 2, 1, 0, 0, 0⟩) 1 .compact).bind (·.elemAddr (dist2 ⟨4, 2, 2, 1, 0, 0, 0⟩ ⟨4, 2, 2, 1, 0, 0, 0⟩) i j) := by
    intro i j; rw [hm']; rfl
  refine ⟨⟨4, 2, 2, 1, 0, 0, 0⟩, ⟨4, 2, 2, 1, 0, 0, 0⟩, m, m', by decide, by decide, hm, hm', by decide, by decide, ?_, ?_, ?_, ?_, ?_, ?_⟩
  · rw [g]; decide
  · rw [g]; decide
  · rw [g]; decide
  · rw [g']; decide +kernel
  · rw [g']; decide +kernel
  · rw [g']; decide +kernel

/- Non-vacuity: order 7 in tiles of 2 on a 2 x 3 grid with source rank (1, 2), the tiles [1, 4) (elements 2, ..., 6), three rotations with a common column: two between
processes, one on a single process; the result is not the original matrix. -/
section example_
private def exR : Params2 := ⟨⟨7, 2, 2, 2, 0, 1, 0⟩, ⟨7, 2, 2, 3, 0, 2, 0⟩⟩
private noncomputable def exRQ : Elems ℝ := fun x y => x + y
private noncomputable def exRots : List Rot := [⟨0, 3, 0, 1⟩, ⟨3, 1, 0, 1⟩, ⟨3, 2, 0, 1⟩]

private noncomputable def exRLoc (P : Params2) (M : Elems ℝ) (r : Coord2) : Coord2 → Blk ℝ := fun l =>
  ⟨P.row.tileSizes ((P.at' .Row r).dist.global_tile_from_local_tile l.row).toNat, P.col.tileSizes ((P.at' .Col r).dist.global_tile_from_local_tile l.col).toNat,
    fun x y => M (((P.at' .Row r).dist.global_tile_from_local_tile l.row).toNat * P.row.tile.toNat + x)
      (((P.at' .Col r).dist.global_tile_from_local_tile l.col).toNat * P.col.tile.toNat + y)⟩

private theorem exRLoc_holds {P : Params2} (h1 : Plain P.row) (h2 : Plain P.col) {r : Coord2} (hr : r ∈ P.ranks) (M : Elems ℝ) : HoldsElems P r M (exRLoc P M r) := by
  intro i _ j _ o1 o2
  have a1 : Plain (P.at' .Row r) := Params2.plain (c := .Row) h1 hr
  have a2 : Plain (P.at' .Col r) := Params2.plain (c := .Col) h2 hr
  have e1 : (P.at' .Row r).dist.global_tile_from_local_tile ((P.at' .Row r).dist.local_tile_from_global_tile i) = i := a1.gl_lc (by omega) o1
  have e2 : (P.at' .Col r).dist.global_tile_from_local_tile ((P.at' .Col r).dist.local_tile_from_global_tile j) = j := a2.gl_lc (by omega) o2
  unfold exRLoc
  dsimp only
  rw [e1, e2, Int.toNat_natCast, Int.toNat_natCast]
  exact ⟨rfl, rfl, fun _ _ _ _ => rfl⟩

private theorem exRots_ok : ∀ q ∈ exRots, q.i < min 7 (4 * 2) - 1 * 2 ∧ q.j < min 7 (4 * 2) - 1 * 2 ∧ q.i ≠ q.j := by
  intro q h
  simp only [exRots, List.mem_cons, List.not_mem_nil, or_false] at h
  rcases h with rfl | rfl | rfl <;> decide

example : AlwaysEnds (Conf.init (fun r => if r ∈ exR.ranks then DistRot.program (exR.on r) (1 : Nat) (4 : Nat) exRots else []) fun r => ⟨exRLoc exR exRQ r, fun _ => 0⟩) fun fin =>
    ∃ Q' : Elems ℝ, Q' 2 2 ≠ exRQ 2 2 ∧ ∀ r ∈ exR.ranks, HoldsElems exR r Q' (fin r).a := by
  have h := C65_same_as_local (P := exR) (n := 7) (nb := 2) (ib := 1) (ie := 4) (by decide) rfl rfl (by omega) (by decide) exRots_ok exRQ
    (st := fun r => ⟨exRLoc exR exRQ r, fun _ => 0⟩) (fun r hr => exRLoc_holds (by decide) (by decide) hr _)
  obtain ⟨k, f, d, q, s⟩ := h
  refine ⟨k, f, d, ⟨_, ?_, q⟩, s⟩
  unfold putE
  rw [if_pos (by decide)]
  simp only [exRots, applyRots, List.foldl_cons, List.foldl_nil]
  norm_num [rotCols, shE, exRQ]

end example_
end DLAF
