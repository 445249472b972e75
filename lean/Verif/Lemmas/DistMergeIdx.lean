import Verif.Props.DistPartition
import Verif.Lemmas.DcWin
/- The index vectors of the distributed deflation partition, entry by entry. -/
namespace DLAF.C67
open DLAF DLAF.C34 DLAF.C35

section
variable {p : Params} {n : Nat} {types : List ColType} {evals : List ℝ} {perm out1 out2 : List Nat}
variable (hp : p.Valid) (hn : p.size = n) (h1 : types.length = n) (h2 : evals.length = n) (h3 : out1.length = n) (h4 : out2.length = n) (hperm : IsPerm n perm)
variable {R : DistPart.Result} (h : DistPart.stablePartition p.dist types evals perm out1 out2 = some R)
include hp hn h1 h2 h3 h4 hperm h

/-- The entries of the index vectors. -/
structure Entries (n : Nat) (types : List ColType) (evals : List ℝ) (perm : List Nat) (R : DistPart.Result) : Prop where
  le : R.k ≤ n
  perm3 : IsPerm n R.index_sorted
  perm5 : IsPerm n R.index_sorted_coltype
  perm4 : IsPerm n R.i4
  perm6 : IsPerm n R.i6
  perm2 : IsPerm n R.i2
  keep : ∀ a < R.k, types[R.index_sorted.getD a 0]? ≠ some .Deflated
  drop : ∀ a, R.k ≤ a → a < n → types[R.index_sorted.getD a 0]? = some .Deflated
  order : ∀ Q : Nat → Nat → Prop, (perm.filter fun i => types[i]? ≠ some .Deflated).Pairwise Q → ∀ i j, i < j → j < R.k → Q (R.index_sorted.getD i 0) (R.index_sorted.getD j 0)
  sorted : ∀ i j, i < j → R.k ≤ i → j < n → evals.getD (R.index_sorted.getD i 0) 0 ≤ evals.getD (R.index_sorted.getD j 0) 0
  h34 : ∀ l < n, R.index_sorted.getD (R.i4.getD l 0) 0 = R.index_sorted_coltype.getD l 0
  types5 : ∀ j < n, (typesAlong types R.index_sorted_coltype)[j]? = types[R.index_sorted_coltype.getD j 0]?
  i4k : ∀ l < n, R.i4.getD l 0 < R.k ↔ (typesAlong types R.index_sorted_coltype)[l]? ≠ some .Deflated
  defl : ∀ j < n, (typesAlong types R.index_sorted_coltype)[j]? = some .Deflated → R.i6.getD j 0 = R.i4.getD j 0
  inv : ∀ a < n, R.i6.getD (R.i2.getD a 0) 0 = a

theorem entries : Entries n types evals perm R := by
  obtain ⟨defl, a1, a2, a3, a4⟩ := C67_index_sorted hp hn h1 h2 h3 h4 hperm h
  obtain ⟨b1, _, _⟩ := C67_sorted_by_type hp hn h1 h2 h3 h4 hperm h
  obtain ⟨c1, _⟩ := C67_counts hp hn h1 h2 h3 h4 hperm h
  obtain ⟨⟨d1, d2⟩, ⟨d3, d4⟩, d5, d6⟩ := C67_maps hp hn h1 h2 h3 h4 hperm h
  have hle : R.k ≤ n := by omega
  have hF : (perm.filter fun i => types[i]? ≠ some .Deflated).length = R.k := by
    have e1 := (hperm.filter fun i => decide (types[i]? ≠ some ColType.Deflated)).length_eq
    rw [e1, c1]
    have e2 : ((List.range n).filter fun i => decide (types[i]? ≠ some ColType.Deflated)).length + types.count .Deflated = n := by
      have hm : types = (List.range n).map fun i => types.getD i .Deflated := by
        apply List.ext_getElem
        · simp [h1]
        · intro i u v
          simp [List.getElem?_eq_getElem u]
      have hc : types.count .Deflated = ((List.range n).filter fun i => decide (types[i]? = some ColType.Deflated)).length := by
        conv_lhs => rw [hm]
        rw [List.count_eq_countP, List.countP_map, ← List.countP_eq_length_filter]
        apply List.countP_congr
        intro i hi
        have hi' : i < types.length := by rw [h1]; exact List.mem_range.1 hi
        simp [List.getElem?_eq_getElem hi']
      rw [hc]
      have := List.length_eq_length_filter_add (l := List.range n) (fun i => decide (types[i]? = some ColType.Deflated))
      rw [List.length_range] at this
      have e3 : ((List.range n).filter fun i => decide (types[i]? ≠ some ColType.Deflated)) = (List.range n).filter fun i => !decide (types[i]? = some ColType.Deflated) :=
        List.filter_congr fun i _ => by simp
      rw [e3]
      omega
    omega
  have get3 : ∀ a < n, R.index_sorted[a]? = some (R.index_sorted.getD a 0) := fun a ha => by
    rw [List.getElem?_eq_getElem (by rw [a4.length]; exact ha), getD_get (by rw [a4.length]; exact ha)]
  have get5 : ∀ a < n, R.index_sorted_coltype[a]? = some (R.index_sorted_coltype.getD a 0) := fun a ha => by
    rw [List.getElem?_eq_getElem (by rw [b1.length]; exact ha), getD_get (by rw [b1.length]; exact ha)]
  have get4 : ∀ a < n, R.i4[a]? = some (R.i4.getD a 0) := fun a ha => by
    rw [List.getElem?_eq_getElem (by rw [d1.length]; exact ha), getD_get (by rw [d1.length]; exact ha)]
  have get6 : ∀ a < n, R.i6[a]? = some (R.i6.getD a 0) := fun a ha => by
    rw [List.getElem?_eq_getElem (by rw [d3.length]; exact ha), getD_get (by rw [d3.length]; exact ha)]
  have first : ∀ a < R.k, (perm.filter fun i => types[i]? ≠ some .Deflated)[a]? = some (R.index_sorted.getD a 0) := by
    intro a ha
    rw [← get3 a (by omega), a1, List.getElem?_append_left (by omega)]
  have keep : ∀ a < R.k, types[R.index_sorted.getD a 0]? ≠ some .Deflated := by
    intro a ha
    have := List.mem_of_getElem? (first a ha)
    simpa using (List.mem_filter.1 this).2
  have last : ∀ a, R.k ≤ a → a < n → defl[a - R.k]? = some (R.index_sorted.getD a 0) := by
    intro a ha han
    rw [← get3 a han, a1, List.getElem?_append_right (by omega), hF]
  have drop : ∀ a, R.k ≤ a → a < n → types[R.index_sorted.getD a 0]? = some .Deflated := by
    intro a ha han
    have := a2.mem_iff.1 (List.mem_of_getElem? (last a ha han))
    unfold select at this
    simpa using (List.mem_filter.1 this).2
  have h34 : ∀ l < n, R.index_sorted.getD (R.i4.getD l 0) 0 = R.index_sorted_coltype.getD l 0 := by
    intro l hl
    have e := d2 l _ (get4 l hl)
    rw [get3 _ (IsPerm.getD_lt d1 hl), get5 l hl] at e
    exact Option.some.inj e
  have types5 : ∀ j < n, (typesAlong types R.index_sorted_coltype)[j]? = types[R.index_sorted_coltype.getD j 0]? := by
    intro j hj
    have e : typesAlong types R.index_sorted_coltype = R.index_sorted_coltype.map fun i => types.getD i .Deflated := by
      unfold typesAlong
      rw [← List.filterMap_eq_map]
      apply List.filterMap_congr
      intro i hi
      have : i < types.length := by rw [h1]; exact b1.lt hi
      simp [List.getElem?_eq_getElem this]
    have hlt : R.index_sorted_coltype.getD j 0 < types.length := by rw [h1]; exact IsPerm.getD_lt b1 hj
    rw [e, List.getElem?_map, get5 j hj, Option.map_some, List.getD_eq_getElem?_getD (l := types), List.getElem?_eq_getElem hlt, Option.getD_some]
  have i4k : ∀ l < n, R.i4.getD l 0 < R.k ↔ (typesAlong types R.index_sorted_coltype)[l]? ≠ some .Deflated := by
    intro l hl
    rw [types5 l hl, ← h34 l hl]
    constructor
    · exact fun hk => keep _ hk
    · intro hd
      by_contra hk
      exact hd (drop _ (by omega) (IsPerm.getD_lt d1 hl))
  refine
    { le := hle, perm3 := a4, perm5 := b1, perm4 := d1, perm6 := d3, perm2 := d5, keep := keep, drop := drop, order := ?_, sorted := ?_, h34 := h34, types5 := types5, i4k := i4k,
      defl := ?_, inv := ?_ }
  · intro Q hQ i j hij hj
    rw [List.pairwise_iff_getElem] at hQ
    obtain ⟨u1, u2⟩ := List.getElem?_eq_some_iff.1 (first i (by omega))
    obtain ⟨v1, v2⟩ := List.getElem?_eq_some_iff.1 (first j hj)
    rw [← u2, ← v2]
    exact hQ i j u1 v1 hij
  · intro i j hij hi hj
    unfold SortedAlong at a3
    rw [List.pairwise_iff_getElem] at a3
    obtain ⟨u1, u2⟩ := List.getElem?_eq_some_iff.1 (last i hi (by omega))
    obtain ⟨v1, v2⟩ := List.getElem?_eq_some_iff.1 (last j (by omega) hj)
    obtain ⟨x, y, e1, e2, e3⟩ := a3 _ _ u1 v1 (by omega)
    rw [u2] at e1
    rw [v2] at e2
    rw [List.getD_eq_getElem?_getD (l := evals), e1, List.getD_eq_getElem?_getD (l := evals), e2]
    exact e3
  · intro j hj hd
    have := d4 j _ hd
    rw [if_neg (by simp), get6 j hj, get4 j hj] at this
    exact Option.some.inj this
  · intro a ha
    obtain ⟨g, hg, hga⟩ := IsPerm.getD_sur d3 ha
    have := d6 g a (by rw [get6 g hg, hga])
    rw [List.getD_eq_getElem?_getD (l := R.i2), this, Option.getD_some, hga]

end
end DLAF.C67
