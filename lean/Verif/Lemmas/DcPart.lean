import Verif.Lemmas.DcStep1
/- The partition, by positions. -/
namespace DLAF
open C34 C35

/-- What the partition gives, by positions. -/
structure PartOk (c : Nat → ColType) (d : Nat → ℝ) (n : Nat) (i2 : List Nat) (p : Partition) (nu nd nl : Nat) : Prop where
  udl : p.n_udl = [nu, nd, nl]
  sum : nu + nd + nl = p.k
  le : p.k ≤ n
  perm3 : IsPerm n p.index_sorted
  perm5 : IsPerm n p.index_sorted_coltype
  keep : ∀ l < p.k, c (p.index_sorted.getD l 0) ≠ .Deflated
  drop : ∀ l, p.k ≤ l → l < n → c (p.index_sorted.getD l 0) = .Deflated
  upper : ∀ l < nu, c (p.index_sorted_coltype.getD l 0) = .UpperHalf
  lower : ∀ l, nu + nd ≤ l → l < p.k → c (p.index_sorted_coltype.getD l 0) = .LowerHalf
  keep5 : ∀ l < p.k, c (p.index_sorted_coltype.getD l 0) ≠ .Deflated
  tail : ∀ l, p.k ≤ l → l < n → p.index_sorted_coltype.getD l 0 = p.index_sorted.getD l 0
  sorted : ∀ i j, i ≤ j → p.k ≤ i → j < n → d (p.index_sorted.getD i 0) ≤ d (p.index_sorted.getD j 0)
  order : ∀ R : Nat → Nat → Prop, i2.Pairwise R → ∀ i j, i < j → j < p.k → R (p.index_sorted.getD i 0) (p.index_sorted.getD j 0)

theorem count_winL_lt {n : Nat} {types : List ColType} (h : types.length = n) :
    types.count .UpperHalf + types.count .Dense + types.count .LowerHalf + types.count .Deflated = n := by
  have := cnt_sum types
  rw [← h]
  exact this

theorem part_ok {c : Nat → ColType} {d : Nat → ℝ} {off n : Nat} {i2 out1 out2 : List Nat} (hp : IsPerm n i2) (h3 : out1.length = n)
    (h4 : out2.length = n) :
    ∃ p nu nd nl, stablePartition (winL c off n) (winL d off n) i2 out1 out2 = some p ∧
      PartOk (shF c off) (shF d off) n i2 p nu nd nl := by
  obtain ⟨p, defl, e1, e2, e3, e4, e5, e6, e7, e8, e9⟩ := C35_partition (types := winL c off n) (evals := winL d off n)
    (winL_length c off n) (winL_length d off n) h3 h4 hp
  have hsum := count_winL_lt (winL_length c off n)
  have hty : ∀ {i t}, (winL c off n)[i]? = some t ↔ i < n ∧ shF c off i = t := by
    intro i t
    rw [winL_getElem?]
    by_cases h : i < n
    · rw [if_pos h]
      exact ⟨fun h' => ⟨h, Option.some.inj h'⟩, fun h' => congrArg some h'.2⟩
    · rw [if_neg h]
      exact ⟨fun h' => absurd h' (by simp), fun h' => absurd h'.1 h⟩
  have hsel : ∀ t, (select (winL c off n) t (List.range n)).length = (winL c off n).count t := by
    intro t
    exact filter_perm_len (winL_length c off n) (List.Perm.refl _) t
  obtain ⟨U, hU⟩ : ∃ U, U = select (winL c off n) .UpperHalf (List.range n) := ⟨_, rfl⟩
  obtain ⟨D, hD⟩ : ∃ D, D = select (winL c off n) .Dense (List.range n) := ⟨_, rfl⟩
  obtain ⟨L, hL⟩ : ∃ L, L = select (winL c off n) .LowerHalf (List.range n) := ⟨_, rfl⟩
  obtain ⟨F, hF⟩ : ∃ F, F = i2.filter (fun i => (winL c off n)[i]? ≠ some .Deflated) := ⟨_, rfl⟩
  have lU := hsel .UpperHalf
  have lD := hsel .Dense
  have lL := hsel .LowerHalf
  rw [← hU] at lU e3
  rw [← hD] at lD e3
  rw [← hL] at lL e3
  rw [← hF] at e2
  have len5 := e7.length
  have len3 := e6.length
  rw [e3] at len5
  rw [e2] at len3
  simp only [List.length_append] at len5 len3
  have hk : p.k = U.length + D.length + L.length := by omega
  have hFk : F.length = p.k := by omega
  have mem_sel : ∀ {t l i}, i ∈ select (winL c off n) t l → shF c off i = t := by
    intro t l i hi
    have := (List.mem_filter.1 hi).2
    exact (hty.1 (of_decide_eq_true this)).2
  have memF : ∀ {i}, i ∈ F → shF c off i ≠ .Deflated := by
    intro i hi
    rw [hF] at hi
    have h1 := List.mem_filter.1 hi
    intro h2
    exact (of_decide_eq_true h1.2) (hty.2 ⟨hp.lt h1.1, h2⟩)
  have memD : ∀ {i}, i ∈ defl → shF c off i = .Deflated := fun hi => mem_sel (e4.mem_iff.1 hi)
  have ap : ∀ {A B : List Nat} {l}, l < A.length → (A ++ B).getD l 0 = A.getD l 0 ∧ A.getD l 0 ∈ A := by
    intro A B l hl
    refine ⟨?_, ?_⟩
    · rw [List.getD_eq_getElem?_getD, List.getElem?_append_left hl, ← List.getD_eq_getElem?_getD]
    · rw [getD_get hl]
      exact List.getElem_mem _
  have ap' : ∀ {A B : List Nat} {l}, A.length ≤ l → (A ++ B).getD l 0 = B.getD (l - A.length) 0 := by
    intro A B l hl
    rw [List.getD_eq_getElem?_getD, List.getElem?_append_right hl, ← List.getD_eq_getElem?_getD]
  have mm : ∀ {A : List Nat} {l}, l < A.length → A.getD l 0 ∈ A := by
    intro A l hl
    rw [getD_get hl]
    exact List.getElem_mem _
  have s3 : ∀ l, p.k ≤ l → p.index_sorted.getD l 0 = defl.getD (l - p.k) 0 := by
    intro l hl
    rw [e2, ap' (by omega), hFk]
  have s5 : ∀ l, p.k ≤ l → p.index_sorted_coltype.getD l 0 = defl.getD (l - p.k) 0 := by
    intro l hl
    rw [e3, ap' (by simp only [List.length_append]; omega)]
    congr 1
    simp only [List.length_append]
    omega
  refine ⟨p, U.length, D.length, L.length, e1, ?_⟩
  refine
    { udl := by rw [e9, lU, lD, lL]
      sum := hk.symm
      le := by omega
      perm3 := e6
      perm5 := e7
      keep := ?_
      drop := ?_
      upper := ?_
      lower := ?_
      keep5 := ?_
      tail := ?_
      sorted := ?_
      order := ?_ }
  · intro l hl
    rw [e2, (ap (by omega)).1]
    exact memF (mm (by omega))
  · intro l hl hn
    rw [s3 l hl]
    exact memD (mm (by omega))
  · intro l hl
    rw [e3, List.append_assoc, List.append_assoc, (ap hl).1]
    have := mm hl
    rw [hU] at this ⊢
    exact mem_sel this
  · intro l hl hk'
    rw [e3, List.append_assoc, ap' (by simp only [List.length_append]; omega), (ap (by simp only [List.length_append]; omega)).1]
    have := mm (A := L) (l := l - (U ++ D).length) (by simp only [List.length_append]; omega)
    rw [hL] at this ⊢
    exact mem_sel this
  · intro l hl
    rw [e3, (ap (by simp only [List.length_append]; omega)).1]
    have := mm (A := U ++ D ++ L) (l := l) (by simp only [List.length_append]; omega)
    generalize (U ++ D ++ L).getD l 0 = i at *
    rw [List.mem_append, List.mem_append, hU, hD, hL] at this
    rcases this with (h | h) | h <;> rw [mem_sel h] <;> decide
  · intro l hl hn
    rw [s3 l hl, s5 l hl]
  · intro i j hij hi hj
    rw [s3 i hi, s3 j (by omega)]
    have hlt : ∀ i ∈ defl, i < n := by
      intro i hi
      refine e6.lt ?_
      rw [e2]
      exact List.mem_append_right _ hi
    rw [sortedAlong_win hlt] at e5
    exact e5 (i - p.k) (j - p.k) (by omega) (by omega)
  · intro R hR i j hij hj
    rw [e2, (ap (by omega)).1, (ap (by omega)).1, getD_get (by omega), getD_get (by omega)]
    have : F.Pairwise R := by
      rw [hF]
      exact hR.filter _
    exact (List.pairwise_iff_getElem.1 this) i j (by omega) (by omega) hij

end DLAF
