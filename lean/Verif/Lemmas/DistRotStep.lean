import Verif.Lemmas.DistRotLocal
import Verif.Lemmas.DistRedPanel3
/- Distributed Givens rotations: one rotation. -/
namespace DLAF
namespace DistRot
open scoped Classical

theorem range_tile {n nb ib ie len x : Nat} (hp : 0 < nb) (R : Rng n nb ib ie len) (h : ib * nb ≤ x) (h' : x < ib * nb + len) : ib ≤ x / nb ∧ x / nb < ie := by
  have := R.bounds
  exact ⟨(Nat.le_div_iff_mul_le hp).2 h, (Nat.div_lt_iff_lt_mul hp).2 (by omega)⟩

theorem col_tile {nb ib c : Nat} (hp : 0 < nb) : (ib * nb + c) / nb = ib + c / nb := by
  rw [Nat.add_comm, Nat.add_mul_div_right _ _ hp, Nat.add_comm]

section
variable {P : Params2} {n nb : Nat} (h1 : Ax P.row n nb) (h2 : Ax P.col n nb) {r : Coord2} (hr : r ∈ P.ranks)
include h1 h2 hr

/-- Only the elements of the own tiles matter. -/
theorem WinAt.congr_own {M N : Elems ℝ} {a : Coord2 → Blk ℝ} (hw : WinAt P n nb n nb r M a)
    (he : ∀ x < n, ∀ y < n, P.row.dist.rank_global_tile ((x / nb : Nat) : Int) = r.row → P.col.dist.rank_global_tile ((y / nb : Nat) : Int) = r.col → M x y = N x y) :
    WinAt P n nb n nb r N a := by
  have b1 := Params2.mem_ranks.1 hr .Row
  have b2 := Params2.mem_ranks.1 hr .Col
  have a1 : Ax (P.row.onRank r.row) n nb := h1.onRank b1.1 b1.2
  have a2 : Ax (P.col.onRank r.col) n nb := h2.onRank b2.1 b2.2
  have hp := h1.nb_pos
  intro i j hi hi' hj hj'
  obtain ⟨w1, w2, w3⟩ := hw i j hi hi' hj hj'
  refine ⟨w1, w2, fun x hx y hy => ?_⟩
  have d : ∀ a z : Nat, z < nb → (a * nb + z) / nb = a := fun a z hz => by
    rw [Nat.add_comm, Nat.mul_comm, Nat.add_mul_div_left _ _ hp, Nat.div_eq_of_lt hz]; omega
  rw [w3 x hx y hy]
  refine he _ (by omega) _ (by omega) ?_ ?_
  · rw [d _ _ (by omega), a1.gn_cast hi]
    exact a1.plain.gl_own hi
  · rw [d _ _ (by omega), a2.gn_cast hj]
    exact a2.plain.gl_own hj

variable {ib ie len : Nat} (R : Rng n nb ib ie len)
include R

/-- A process without rows in the range. -/
theorem skip_rows {M : Elems ℝ} {a : Coord2 → Blk ℝ} (hw : WinAt P n nb n nb r M a) (hz : (P.row.onRank r.row).nx ie = (P.row.onRank r.row).nx ib) (q : Rot) :
    WinAt P n nb n nb r (rotG (ib * nb) len q M) a := by
  have b1 := Params2.mem_ranks.1 hr .Row
  have a1 : Ax (P.row.onRank r.row) n nb := h1.onRank b1.1 b1.2
  refine WinAt.congr_own h1 h2 hr hw fun x hx y hy o1 _ => ?_
  unfold rotG
  rw [if_neg]
  rintro ⟨c1, c2⟩
  obtain ⟨t1, t2⟩ := range_tile h1.nb_pos R c1 c2
  have := a1.plain.nx_succ (t := ((x / nb : Nat) : Int)) (Int.natCast_nonneg _) o1
  have := a1.plain.nx_mono (s := (ib : Int)) (t := ((x / nb : Nat) : Int)) (by omega) (by omega)
  have := a1.plain.nx_mono (s := ((x / nb : Nat) : Int) + 1) (t := (ie : Int)) (by omega) (by omega)
  omega

/-- A process without the two columns. -/
theorem skip_cols {M : Elems ℝ} {a : Coord2 → Blk ℝ} (hw : WinAt P n nb n nb r M a) {q : Rot}
    (oi : P.col.dist.rank_global_tile ((ib + q.i / nb : Nat) : Int) ≠ r.col) (oj : P.col.dist.rank_global_tile ((ib + q.j / nb : Nat) : Int) ≠ r.col) :
    WinAt P n nb n nb r (rotG (ib * nb) len q M) a := by
  refine WinAt.congr_own h1 h2 hr hw fun x hx y hy _ o2 => ?_
  unfold rotG
  have e1 : y ≠ ib * nb + q.i := by
    rintro rfl
    rw [col_tile h1.nb_pos] at o2
    exact oi o2
  have e2 : y ≠ ib * nb + q.j := by
    rintro rfl
    rw [col_tile h1.nb_pos] at o2
    exact oj o2
  rw [if_neg e1, if_neg e2, ite_self]

/-- Abbreviations: the distribution of the range, the collected tiles, the local rows. -/
noncomputable def sub (P : Params2) (ib len : Nat) (r : Coord2) : Distribution := ⟨((P.row.onRank r.row).cut len ib).dist, ((P.col.onRank r.col).cut len ib).dist⟩
@[inherit_doc sub] def org (P : Params2) (ib : Nat) (r : Coord2) : Coord2 := ⟨(P.row.onRank r.row).nx ib, (P.col.onRank r.col).nx ib⟩
@[inherit_doc sub] def ext (P : Params2) (ib ie : Nat) (r : Coord2) : Coord2 :=
  ⟨(P.row.onRank r.row).nx ie - (P.row.onRank r.row).nx ib, (P.col.onRank r.col).nx ie - (P.col.onRank r.col).nx ib⟩
@[inherit_doc sub] def loc (P : Params2) (ib len : Nat) (r : Coord2) : Nat := ((P.row.onRank r.row).cut len ib).dist.localSize.toNat
/-- The row of the matrix of local row `k` of the range. -/
def rowOf (P : Params2) (nb ib : Nat) (r : Coord2) (k : Nat) : Nat := (P.row.onRank r.row).gn ((P.row.onRank r.row).nx ib + ((k / nb : Nat) : Int)) * nb + k % nb

variable {q : Rot} (hi : q.i < len) (hj : q.j < len) (hR : (P.row.onRank r.row).nx ie ≠ (P.row.onRank r.row).nx ib)
  {M : Elems ℝ} {s : RotSt} (hw : WinAt P n nb n nb r M s.a)
include hR hw

include hi in
theorem sendX (oi : P.col.dist.rank_global_tile ((ib + q.i / nb : Nat) : Int) = r.col) :
    ∃ v, sendCol (P.on r) (loc P ib len r) (colPtr (sub P ib len r) (org P ib r) (ext P ib ie r) q.i) s = some (s, v) ∧ v.rows = loc P ib len r ∧
      ∀ k < loc P ib len r, v.e k 0 = M (rowOf P nb ib r k) (ib * nb + q.i) := by
  have e := colPtr_eq h1 h2 R hr hi oi hR
  obtain ⟨f, f1, f2⟩ := readCol_eq h1 h2 R hr hi oi hw
  unfold sendCol sub org ext
  rw [e]
  refine ⟨⟨loc P ib len r, 1, fun k _ => f k⟩, ?_, rfl, f2⟩
  rw [Option.bind_some]
  unfold loc
  rw [f1]
  rfl

include hj in
theorem sendY (oj : P.col.dist.rank_global_tile ((ib + q.j / nb : Nat) : Int) = r.col) :
    ∃ v, sendCol (P.on r) (loc P ib len r) (colPtr (sub P ib len r) (org P ib r) (ext P ib ie r) q.j) s = some (s, v) ∧ v.rows = loc P ib len r ∧
      ∀ k < loc P ib len r, v.e k 0 = M (rowOf P nb ib r k) (ib * nb + q.j) :=
  sendX (q := ⟨q.j, q.j, 0, 0⟩) h1 h2 hr R hj hR hw oj

include hi hj

theorem rotBoth_spec (hij : q.i ≠ q.j) (oi : P.col.dist.rank_global_tile ((ib + q.i / nb : Nat) : Int) = r.col)
    (oj : P.col.dist.rank_global_tile ((ib + q.j / nb : Nat) : Int) = r.col) :
    ∃ s', rotBoth (P.on r) (loc P ib len r) (colPtr (sub P ib len r) (org P ib r) (ext P ib ie r) q.i) (colPtr (sub P ib len r) (org P ib r) (ext P ib ie r) q.j) q s = some s' ∧
      WinAt P n nb n nb r (rotG (ib * nb) len q M) s'.a := by
  have ei := colPtr_eq h1 h2 R hr hi oi hR
  have ej := colPtr_eq h1 h2 R hr hj oj hR
  obtain ⟨f, f1, f2⟩ := readCol_eq h1 h2 R hr hi oi hw
  obtain ⟨g, g1, g2⟩ := readCol_eq h1 h2 R hr hj oj hw
  have w1 := writeCol_win h1 h2 R hr hi oi hw (f := rotX q f g) (g := fun x => q.c * M x (ib * nb + q.i) + q.s * M x (ib * nb + q.j))
    (fun k hk => by unfold rotX; rw [f2 k hk, g2 k hk])
  have w2 := writeCol_win h1 h2 R hr hj oj w1 (f := rotY q f g) (g := fun x => q.c * M x (ib * nb + q.j) - q.s * M x (ib * nb + q.i))
    (fun k hk => by unfold rotY; rw [f2 k hk, g2 k hk])
  unfold rotBoth sub org ext
  rw [ei, ej]
  unfold loc
  rw [Option.bind_some, Option.bind_some, f1, g1]
  refine ⟨_, rfl, ?_⟩
  refine WinAt.congr_own h1 h2 hr w2 fun x _ y _ _ _ => ?_
  unfold rotG
  by_cases hx : ib * nb ≤ x ∧ x < ib * nb + len
  · rw [if_pos hx]
    by_cases e1 : y = ib * nb + q.i
    · rw [if_pos e1, if_neg (by rintro ⟨e2, _⟩; omega), if_pos ⟨e1, hx⟩]
    · by_cases e2 : y = ib * nb + q.j
      · rw [if_pos ⟨e2, hx⟩, if_neg e1, if_pos e2]
      · rw [if_neg (fun z => e2 z.1), if_neg (fun z => e1 z.1), if_neg e1, if_neg e2]
  · rw [if_neg hx, if_neg (fun z => hx z.2), if_neg (fun z => hx z.2)]

omit hj in
theorem rotOwnX_spec (oi : P.col.dist.rank_global_tile ((ib + q.i / nb : Nat) : Int) = r.col)
    (oj : P.col.dist.rank_global_tile ((ib + q.j / nb : Nat) : Int) ≠ r.col)
    (hs : ∀ k < loc P ib len r, s.ws k = M (rowOf P nb ib r k) (ib * nb + q.j)) :
    ∃ s', rotOwnX (P.on r) (loc P ib len r) (colPtr (sub P ib len r) (org P ib r) (ext P ib ie r) q.i) q s = some s' ∧
      WinAt P n nb n nb r (rotG (ib * nb) len q M) s'.a := by
  have ei := colPtr_eq h1 h2 R hr hi oi hR
  obtain ⟨f, f1, f2⟩ := readCol_eq h1 h2 R hr hi oi hw
  have w1 := writeCol_win h1 h2 R hr hi oi hw (f := rotX q f s.ws) (g := fun x => q.c * M x (ib * nb + q.i) + q.s * M x (ib * nb + q.j))
    (fun k hk => by unfold rotX; rw [f2 k hk, hs k hk]; rfl)
  unfold rotOwnX sub org ext
  rw [ei]
  unfold loc
  rw [Option.bind_some, f1]
  refine ⟨_, rfl, ?_⟩
  refine WinAt.congr_own h1 h2 hr w1 fun x _ y _ _ o2 => ?_
  have e2 : y ≠ ib * nb + q.j := by
    rintro rfl
    rw [col_tile h1.nb_pos] at o2
    exact oj o2
  unfold rotG
  by_cases hx : ib * nb ≤ x ∧ x < ib * nb + len
  · rw [if_pos hx]
    by_cases e1 : y = ib * nb + q.i
    · rw [if_pos e1, if_pos ⟨e1, hx⟩]
    · rw [if_neg (fun z => e1 z.1), if_neg e1, if_neg e2]
  · rw [if_neg hx, if_neg (fun z => hx z.2)]

omit hi in
theorem rotOwnY_spec (oi : P.col.dist.rank_global_tile ((ib + q.i / nb : Nat) : Int) ≠ r.col)
    (oj : P.col.dist.rank_global_tile ((ib + q.j / nb : Nat) : Int) = r.col)
    (hs : ∀ k < loc P ib len r, s.ws k = M (rowOf P nb ib r k) (ib * nb + q.i)) :
    ∃ s', rotOwnY (P.on r) (loc P ib len r) (colPtr (sub P ib len r) (org P ib r) (ext P ib ie r) q.j) q s = some s' ∧
      WinAt P n nb n nb r (rotG (ib * nb) len q M) s'.a := by
  have ej := colPtr_eq h1 h2 R hr hj oj hR
  obtain ⟨f, f1, f2⟩ := readCol_eq h1 h2 R hr hj oj hw
  have w1 := writeCol_win h1 h2 R hr hj oj hw (f := rotY q s.ws f) (g := fun x => q.c * M x (ib * nb + q.j) - q.s * M x (ib * nb + q.i))
    (fun k hk => by unfold rotY; rw [f2 k hk, hs k hk]; rfl)
  unfold rotOwnY sub org ext
  rw [ej]
  unfold loc
  rw [Option.bind_some, f1]
  refine ⟨_, rfl, ?_⟩
  refine WinAt.congr_own h1 h2 hr w1 fun x _ y _ _ o2 => ?_
  have e1 : y ≠ ib * nb + q.i := by
    rintro rfl
    rw [col_tile h1.nb_pos] at o2
    exact oi o2
  unfold rotG
  by_cases hx : ib * nb ≤ x ∧ x < ib * nb + len
  · rw [if_pos hx]
    by_cases e2 : y = ib * nb + q.j
    · rw [if_neg e1, if_pos e2, if_pos ⟨e2, hx⟩]
    · rw [if_neg (fun z => e2 z.1), if_neg e1, if_neg e2]
  · rw [if_neg hx, if_neg (fun z => hx z.2)]

end
end DistRot
end DLAF
