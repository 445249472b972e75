import Verif.Lemmas.DistPartition3
/-!
# C67: the distributed deflation partition

All theorems: for every distribution of the columns (any tile size, grid, source rank, offset), all types and eigenvalues, every permutation of `0 .. n-1` and whatever is in the
output arrays.
-/
namespace DLAF.C67
open DLAF DLAF.C34 DLAF.C35

/-- What the partition says about the types `cs` along `index_sorted_coltype`: the first `u` columns are upper and the next one is not; all upper and dense columns are among the first
`d`, all non-deflated ones among the first `l`; `d` and `l` cannot be smaller. -/
def Bounds (cs : List ColType) (u d l : Nat) : Prop :=
  u ≤ d ∧ d ≤ l ∧ l ≤ cs.length ∧ (∀ g < u, cs[g]? = some .UpperHalf) ∧ cs[u]? ≠ some .UpperHalf ∧
  (∀ (g : Nat) (c : ColType), cs[g]? = some c → (c = .UpperHalf ∨ c = .Dense → g < d) ∧ (c ≠ .Deflated → g < l)) ∧
  (0 < d → cs[d - 1]? = some .UpperHalf ∨ cs[d - 1]? = some .Dense) ∧ (0 < l → ∃ c, cs[l - 1]? = some c ∧ c ≠ .Deflated)

/-- The types along an index vector. -/
def typesAlong (types : List ColType) (l : List Nat) : List ColType := l.filterMap fun i => types[i]?

section
variable {T : Type} [LinearOrder T] {p : Params} {n : Nat} {types : List ColType} {evals : List T} {perm out1 out2 : List Nat}
variable (hp : p.Valid) (hn : p.size = n) (h1 : types.length = n) (h2 : evals.length = n) (h3 : out1.length = n) (h4 : out2.length = n) (hperm : IsPerm n perm)
include hp hn h1 h2 h3 h4 hperm

/-- C67: no access is out of bounds. -/
theorem C67_defined : ∃ R, DistPart.stablePartition p.dist types evals perm out1 out2 = some R := by
  obtain ⟨_, _, _, _, _, _, _, _, _, _, _, _, h, _⟩ := DistPart.core hp hn h1 h2 h3 h4 hperm
  exact ⟨_, h⟩

variable {R : DistPart.Result} (h : DistPart.stablePartition p.dist types evals perm out1 out2 = some R)
include h

/-- C67: `index_sorted` is the non-deflated columns in the order of `perm_sorted`, then the deflated ones by ascending eigenvalue. -/
theorem C67_index_sorted : ∃ defl, R.index_sorted = perm.filter (fun i => types[i]? ≠ some .Deflated) ++ defl ∧ defl.Perm (select types .Deflated perm) ∧
    SortedAlong evals defl ∧ IsPerm n R.index_sorted := by
  obtain ⟨s, defl, cnt, c, i5, cs, u, l, d, i2, i4, i2', e, a, _⟩ := DistPart.core hp hn h1 h2 h3 h4 hperm
  obtain rfl := Option.some.inj (e.symm.trans h)
  exact ⟨defl, a⟩

/-- C67: `index_sorted_coltype` is a permutation; every column stays on its process column, and on every process column the local columns are the upper, then the dense, then the lower,
then the deflated ones, each in the order of `index_sorted`. -/
theorem C67_sorted_by_type : IsPerm n R.index_sorted_coltype ∧ (∀ g x : Nat, R.index_sorted_coltype[g]? = some x → p.owner x = p.owner g) ∧
    ∀ r, 0 ≤ r → r < p.grid → (localOrder p types r R.index_sorted).length = localColumns p r ∧
      ∀ l < localColumns p r, R.index_sorted_coltype[localColumn p r l]? = (localOrder p types r R.index_sorted)[l]? := by
  obtain ⟨s, defl, cnt, c, i5, cs, u, l, d, i2, i4, i2', e, a, _, b, q, _⟩ := DistPart.core hp hn h1 h2 h3 h4 hperm
  obtain rfl := Option.some.inj (e.symm.trans h)
  exact ⟨q.1, q.2, fun r h0 hr => ⟨DistPart.order_length hp hn h1 a.2.2.2 h0 hr, b r h0 hr⟩⟩

/-- C67: `i5_lc` is the part of `index_sorted_coltype` that belongs to the calling process, in local indices; it is a permutation of the local columns. -/
theorem C67_local_indices : R.i5_lc.length = localColumns p p.rank ∧ R.i5_lc.Nodup ∧
    ∀ l < localColumns p p.rank, ∃ m : Nat, R.i5_lc[l]? = some (m : Int) ∧ m < localColumns p p.rank ∧
      R.index_sorted_coltype[localColumn p p.rank l]? = some (localColumn p p.rank m) := by
  obtain ⟨s, defl, cnt, c, i5, cs, u, l, d, i2, i4, i2', e, a, _, b, q, w, _⟩ := DistPart.core hp hn h1 h2 h3 h4 hperm
  obtain rfl := Option.some.inj (e.symm.trans h)
  dsimp only
  have hr := hp.2.2.2.2.2.1
  unfold DistPart.localIndex at w
  have wl : i5.length = localColumns p p.rank := by rw [mapOpt_length w, List.length_range]; rfl
  have key : ∀ l < localColumns p p.rank, ∃ m : Nat, i5[l]? = some (m : Int) ∧ m < localColumns p p.rank ∧ c[localColumn p p.rank l]? = some (localColumn p p.rank m) := by
    intro l hl
    obtain ⟨q1, q2, q3, _⟩ := DistPart.col_spec hp hn hr.1 hr.2 hl
    have q1 : p.dist.global_element_from_local_element l = localColumn p p.rank l := q1
    have u := mapOpt_getElem? w l
    rw [List.getElem?_range (show l < p.dist.localSize.toNat from hl), Option.bind_some, q1, if_pos (by omega), Int.toNat_natCast] at u
    have hlen := q.1.length
    have hcx : c[localColumn p p.rank l]? = some (c[localColumn p p.rank l]'(by omega)) := List.getElem?_eq_getElem _
    rw [hcx, Option.map_some] at u
    generalize c[localColumn p p.rank l]'(by omega) = x at hcx u
    have hx : x < n := q.1.lt (List.mem_of_getElem? hcx)
    have ho := q.2 _ _ hcx
    rw [q3] at ho
    obtain ⟨_, m, hm, em⟩ := DistPart.col_surj hp hn hx
    rw [ho] at hm em
    obtain ⟨_, _, _, z4⟩ := DistPart.col_spec hp hn hr.1 hr.2 hm
    have z4 : p.dist.local_element_from_global_element (localColumn p p.rank m) = m := z4
    refine ⟨m, ?_, hm, by rw [em]; exact hcx⟩
    rw [u, ← em, z4]
  refine ⟨wl, ?_, key⟩
  rw [List.Nodup, List.pairwise_iff_getElem]
  intro i j hi hj hij he
  obtain ⟨m, x1, _, x2⟩ := key i (by omega)
  obtain ⟨m', y1, _, y2⟩ := key j (by omega)
  rw [List.getElem?_eq_getElem hi] at x1
  rw [List.getElem?_eq_getElem hj] at y1
  have hmm : m = m' := by
    have := (Option.some.inj x1).symm.trans (he.trans (Option.some.inj y1)); omega
  subst hmm
  obtain ⟨u1, u2⟩ := List.getElem?_eq_some_iff.1 x2
  obtain ⟨v1, v2⟩ := List.getElem?_eq_some_iff.1 y2
  have := (List.Nodup.getElem_inj_iff q.1.nodup).1 (u2.trans v2.symm)
  have := (DistPart.col_inj hp hn hr.1 hr.2 hr.1 hr.2 (show i < localColumns p p.rank by omega) (show j < localColumns p p.rank by omega) this).2
  omega

/-- C67: `k` counts the non-deflated columns, `k_lc` those on the process column of the calling process. -/
theorem C67_counts : R.k = n - types.count .Deflated ∧
    R.k_lc = ((List.range n).filter fun i : Nat => decide (types[i]? ≠ some .Deflated ∧ p.owner i = p.rank)).length := by
  obtain ⟨s, defl, cnt, c, i5, cs, u, l, d, i2, i4, i2', e, a, b, _⟩ := DistPart.core hp hn h1 h2 h3 h4 hperm
  obtain rfl := Option.some.inj (e.symm.trans h)
  dsimp only
  refine ⟨by unfold DistPart.countNonDeflated; rw [DistPart.countP_eq, h1], ?_⟩
  have er : p.dist.rank = p.rank := rfl
  rw [b, er, ← (a.2.2.2.filter fun i : Nat => decide (types[i]? ≠ some ColType.Deflated ∧ p.owner i = p.rank)).length_eq]
  exact DistPart.sum_types p.rank s fun i hi => by rw [h1]; exact a.2.2.2.lt hi

/-- C67: the three numbers bound the types along `index_sorted_coltype`. -/
theorem C67_bounds : ∃ u d l, R.n_udl = [u, d, l] ∧ (typesAlong types R.index_sorted_coltype).length = n ∧ Bounds (typesAlong types R.index_sorted_coltype) u d l := by
  obtain ⟨s, defl, cnt, c, i5, cs, u, l, d, i2, i4, i2', e, a, _, _, q, _, w, x1, x2, x3, _⟩ := DistPart.core hp hn h1 h2 h3 h4 hperm
  obtain rfl := Option.some.inj (e.symm.trans h)
  dsimp only
  have hcs : typesAlong types c = cs := by
    have e1 : c.map (fun i => types.getD i .Deflated) = cs := by
      apply List.ext_getElem?
      intro g
      rw [w.2 g, List.getElem?_map]
      cases hg : c[g]? with
      | none => rfl
      | some x =>
        have : x < types.length := by rw [h1]; exact q.1.lt (List.mem_of_getElem? hg)
        simp [List.getElem?_eq_getElem this]
    rw [← e1]
    unfold typesAlong
    rw [← List.filterMap_eq_map]
    apply List.filterMap_congr
    intro i hi
    have : i < types.length := by rw [h1]; exact q.1.lt hi
    simp [List.getElem?_eq_getElem this]
  rw [hcs]
  refine ⟨u, d, l, rfl, w.1, ?_⟩
  obtain ⟨l', y1, y2, y3, y4⟩ := DistPart.lastLoop_spec (fun t => decide (ColType.Deflated ≠ t)) cs cs.length (Nat.le_refl _)
  obtain rfl := Option.some.inj (y1.symm.trans x2)
  obtain ⟨d', z1, z2, z3, z4⟩ := DistPart.lastLoop_spec (fun t => decide (ColType.LowerHalf ≠ t ∧ ColType.Deflated ≠ t)) cs l' y2
  obtain rfl := Option.some.inj (z1.symm.trans x3)
  obtain ⟨f1, f2, f3⟩ := DistPart.firstDense_spec cs
  rw [← x1] at f1 f2 f3
  have B : ∀ (g : Nat) (c : ColType), cs[g]? = some c → (c = .UpperHalf ∨ c = .Dense → g < d') ∧ (c ≠ .Deflated → g < l') := by
    intro g c hg
    have hl : g < cs.length := (List.getElem?_eq_some_iff.1 hg).1
    have hB : c ≠ .Deflated → g < l' := by
      intro hc
      by_contra hcon
      obtain ⟨c', t1, t2⟩ := y3 g (by omega) hl
      obtain rfl := Option.some.inj (hg.symm.trans t1)
      exact hc (by cases c <;> simp at t2 ⊢)
    refine ⟨fun hc => ?_, hB⟩
    have hnd : c ≠ .Deflated := by rcases hc with rfl | rfl <;> decide
    by_contra hcon
    obtain ⟨c', t1, t2⟩ := z3 g (by omega) (hB hnd)
    obtain rfl := Option.some.inj (hg.symm.trans t1)
    rcases hc with rfl | rfl <;> simp at t2
  refine ⟨?_, z2, y2, f2, f3, B, ?_, ?_⟩
  · by_contra hcon
    have := (B _ _ (f2 (u - 1) (by omega))).1 (Or.inl rfl)
    omega
  · intro hd
    obtain ⟨c', t1, t2⟩ := z4 hd
    rw [t1]
    cases c' <;> simp at t2 ⊢
  · intro hl
    obtain ⟨c', t1, t2⟩ := y4 hl
    exact ⟨c', t1, by cases c' <;> simp at t2 ⊢⟩

/-- C67: `i4` leads from `index_sorted_coltype` to `index_sorted`; `i6` numbers the non-deflated columns consecutively in the order of `index_sorted_coltype` and is `i4` for the deflated
ones; `perm_sorted` becomes the inverse of `i6`; all three are permutations. -/
theorem C67_maps : (IsPerm n R.i4 ∧ ∀ g a : Nat, R.i4[g]? = some a → R.index_sorted[a]? = R.index_sorted_coltype[g]?) ∧
    (IsPerm n R.i6 ∧ ∀ (g : Nat) (c : ColType), (typesAlong types R.index_sorted_coltype)[g]? = some c →
      R.i6[g]? = if c ≠ .Deflated then some (((typesAlong types R.index_sorted_coltype).take g).countP fun c => decide (c ≠ .Deflated)) else R.i4[g]?) ∧
    IsPerm n R.i2 ∧ ∀ g a : Nat, R.i6[g]? = some a → R.i2[a]? = some g := by
  obtain ⟨s, defl, cnt, c, i5, cs, u, l, d, i2, i4, i2', e, a, _, _, q, _, w, x1, x2, x3, v1, v2, v3, v4, v5⟩ := DistPart.core hp hn h1 h2 h3 h4 hperm
  obtain rfl := Option.some.inj (e.symm.trans h)
  dsimp only
  have hcs : typesAlong types c = cs := by
    have e1 : c.map (fun i => types.getD i .Deflated) = cs := by
      apply List.ext_getElem?
      intro g
      rw [w.2 g, List.getElem?_map]
      cases hg : c[g]? with
      | none => rfl
      | some x =>
        have : x < types.length := by rw [h1]; exact q.1.lt (List.mem_of_getElem? hg)
        simp [List.getElem?_eq_getElem this]
    rw [← e1]
    unfold typesAlong
    rw [← List.filterMap_eq_map]
    apply List.filterMap_congr
    intro i hi
    have : i < types.length := by rw [h1]; exact q.1.lt hi
    simp [List.getElem?_eq_getElem this]
  rw [hcs]
  obtain ⟨j2, t1, t2, _, _⟩ := C34_invert a.2.2.2 hperm.length
  obtain rfl := Option.some.inj (t1.symm.trans v1)
  obtain ⟨j2', t3, t4, t5, _⟩ := C34_invert v5 t2.length
  obtain rfl := Option.some.inj (t3.symm.trans v3)
  refine ⟨⟨v4.2.2, v4.2.1⟩, ⟨v5, ?_⟩, t4, ?_⟩
  · intro g t hg
    have hgl : g < cs.length := (List.getElem?_eq_some_iff.1 hg).1
    have hi4 : i4[g]? = some (i4[g]'(by omega)) := List.getElem?_eq_getElem _
    have := (DistPart.i6Loop_spec (cs.zip i4) 0).2 g _ _ (List.getElem?_zip_eq_some.2 ⟨hg, hi4⟩)
    have tk : ((cs.zip i4).take g).countP (fun x => decide (x.1 ≠ ColType.Deflated)) = (cs.take g).countP fun c => decide (c ≠ ColType.Deflated) := by
      have : cs.take g = ((cs.zip i4).take g).map Prod.fst := by
        rw [List.map_take, List.map_fst_zip (by omega)]
      rw [this, List.countP_map]
      rfl
    rw [this, tk, Nat.zero_add, hi4]
    split <;> rfl
  · intro g b hg
    obtain ⟨z1, z2⟩ := List.getElem?_eq_some_iff.1 hg
    rw [← z2]
    exact t5 g z1

/-- C67: all processes get the same permutations, whatever their place in the grid; only `k_lc` and `i5_lc` differ. -/
theorem C67_rank_independent {q : Int} (h0 : 0 ≤ q) (hq : q < p.grid) : ∃ k_lc i5_lc,
    DistPart.stablePartition (p.onRank q).dist types evals perm out1 out2 = some { R with k_lc := k_lc, i5_lc := i5_lc } := by
  obtain ⟨R', hR'⟩ := C67_defined (hp.onRank h0 hq) hn h1 h2 h3 h4 hperm
  refine ⟨R'.k_lc, R'.i5_lc, ?_⟩
  rw [hR']
  unfold DistPart.stablePartition at h hR'
  dsimp only at h hR'
  simp only [DistPart.countLoop_onRank, DistPart.binLoop_onRank] at hR'
  obtain ⟨s, e1, h⟩ := Option.bind_eq_some_iff.1 h
  rw [e1, Option.bind_some] at hR'
  obtain ⟨cnt, e2, h⟩ := Option.bind_eq_some_iff.1 h
  rw [e2, Option.bind_some] at hR'
  obtain ⟨c, e3, h⟩ := Option.bind_eq_some_iff.1 h
  rw [e3, Option.bind_some] at hR'
  obtain ⟨i5, e4, h⟩ := Option.bind_eq_some_iff.1 h
  obtain ⟨i5', _, hR'⟩ := Option.bind_eq_some_iff.1 hR'
  obtain ⟨cs, e5, h⟩ := Option.bind_eq_some_iff.1 h
  rw [e5, Option.bind_some] at hR'
  obtain ⟨l, e6, h⟩ := Option.bind_eq_some_iff.1 h
  rw [e6, Option.bind_some] at hR'
  obtain ⟨u, e7, h⟩ := Option.bind_eq_some_iff.1 h
  rw [e7, Option.bind_some] at hR'
  obtain ⟨i2, e8, h⟩ := Option.bind_eq_some_iff.1 h
  rw [e8, Option.bind_some] at hR'
  obtain ⟨i4, e9, h⟩ := Option.bind_eq_some_iff.1 h
  rw [e9, Option.bind_some] at hR'
  obtain ⟨i2', e10, h⟩ := Option.map_eq_some_iff.1 h
  rw [e10, Option.map_some] at hR'
  rw [← h, ← Option.some.inj hR']

end

/-! The example in the documentation of the function (merge.h:404-419): three tiles of three columns on two process columns. -/
namespace Ex67
def pp : Params := ⟨9, 3, 3, 2, 0, 0, 0⟩
def types : List ColType := [.UpperHalf, .LowerHalf, .Deflated, .UpperHalf, .UpperHalf, .Deflated, .LowerHalf, .LowerHalf, .Deflated]

example : pp.Valid ∧ pp.size = (9 : Nat) ∧ types.length = 9 ∧ IsPerm 9 (List.range 9) := by
  refine ⟨by decide, rfl, rfl, List.Perm.refl _⟩

example : DistPart.stablePartition pp.dist types (List.range 9) (List.range 9) (List.replicate 9 0) (List.replicate 9 7) =
    some ⟨6, 4, [1, 5, 7], [0, 1, 3, 4, 6, 7, 2, 5, 8], [0, 1, 6, 3, 4, 5, 7, 2, 8], [0, 1, 3, 4, 2, 5],
      [0, 1, 4, 2, 3, 7, 5, 6, 8], [0, 1, 2, 3, 4, 7, 5, 6, 8], [0, 1, 2, 3, 4, 6, 7, 5, 8]⟩ := by decide +kernel

/-- The other process column: `i5_lc` as in the documentation. -/
example : (DistPart.stablePartition (pp.onRank 1).dist types (List.range 9) (List.range 9) (List.replicate 9 0) (List.replicate 9 7)).map (fun R => (R.k_lc, R.i5_lc)) =
    some (2, [0, 1, 2]) := by decide +kernel
end Ex67
end DLAF.C67
