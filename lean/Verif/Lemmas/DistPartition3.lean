import Verif.Lemmas.DistPartition2
/- The distributed deflation partition: the whole function. -/
namespace DLAF
namespace DistPart
open C34 C35
variable {T : Type} [LinearOrder T] {p : Params} {n : Nat} {types : List ColType} {evals : List T} {perm out1 out2 : List Nat}

theorem countP_eq (types : List ColType) : types.countP (fun t => decide (t ≠ .Deflated)) = types.length - types.count .Deflated := by
  have := List.length_eq_countP_add_countP (fun t : ColType => decide (t ≠ .Deflated)) (l := types)
  have e : types.countP (fun t => !decide (t ≠ .Deflated)) = types.count .Deflated := by
    rw [List.count]
    apply List.countP_congr
    intro t _
    simp
  have e' : types.countP (fun t => decide ¬ (decide (t ≠ .Deflated)) = true) = types.count .Deflated := by
    rw [← e]
    apply List.countP_congr
    intro t _
    simp
  omega

theorem countLoop_onRank (q : Int) : ∀ (rest : List Nat) (off : Int → Nat → Nat),
    DistPart.countLoop (p.onRank q).dist types rest off = DistPart.countLoop p.dist types rest off
  | [], _ => rfl
  | jj :: rest, off => by
    have e : rankOf (p.onRank q).dist = rankOf p.dist := rfl
    unfold countLoop
    rw [e]
    simp only [countLoop_onRank q rest]

theorem binLoop_onRank (q : Int) : ∀ (rest : List Nat) (off : Int → Nat → Nat) (out : List Nat),
    DistPart.binLoop (p.onRank q).dist types rest off out = DistPart.binLoop p.dist types rest off out
  | [], _, _ => rfl
  | jj :: rest, off, out => by
    have e : rankOf (p.onRank q).dist = rankOf p.dist := rfl
    have e' : (p.onRank q).dist.global_element_from_local_element_on_rank = p.dist.global_element_from_local_element_on_rank := rfl
    unfold binLoop
    rw [e, e']
    simp only [binLoop_onRank q rest]

theorem sum_types (r : Int) : ∀ s : List Nat, (∀ i : Nat, i ∈ s → i < types.length) →
    (typeOnRank p types r .UpperHalf s).length + (typeOnRank p types r .Dense s).length + (typeOnRank p types r .LowerHalf s).length =
      (s.filter fun i : Nat => decide (types[i]? ≠ some .Deflated ∧ p.owner i = r)).length
  | [], _ => by simp [typeOnRank]
  | x :: s, hlt => by
    have ih := sum_types r s (fun (i : Nat) hi => hlt i (List.mem_cons_of_mem _ hi))
    have hx := List.getElem?_eq_getElem (l := types) (hlt x List.mem_cons_self)
    unfold typeOnRank at ih ⊢
    simp only [List.filter_cons, hx]
    by_cases ho : p.owner x = r
    · cases ht : types[x]'(hlt x List.mem_cons_self) <;> simp [ho] <;> simp at ih <;> omega
    · simp [ho]; simp at ih; omega

/-- The first array. -/
theorem sorted_part (h1 : types.length = n) (h2 : evals.length = n) (h3 : out1.length = n) (hperm : IsPerm n perm) :
    ∃ s defl, partitionLoop types evals (countNonDeflated types) perm 0 (countNonDeflated types) out1 = some s ∧
      s = perm.filter (fun i => types[i]? ≠ some .Deflated) ++ defl ∧ defl.Perm (select types .Deflated perm) ∧ SortedAlong evals defl ∧ IsPerm n s := by
  obtain ⟨r, defl, c1, c2, _, c4, c5, c6, _, c8, _⟩ := C35_partition h1 h2 h3 (out2 := out1) h3 hperm
  refine ⟨r.index_sorted, defl, ?_, c2, c4, c5, c6⟩
  unfold DLAF.stablePartition at c1
  dsimp only at c1
  obtain ⟨s, e1, e2⟩ := Option.bind_eq_some_iff.1 c1
  obtain ⟨c, e3, e4⟩ := Option.map_eq_some_iff.1 e2
  have hk : (partialSum 0 (typeCounts types)).getD (ev_sort_order .Deflated) 0 = countNonDeflated types := by
    unfold countNonDeflated
    rw [countP_eq, h1, ← c8, ← e4]
  rw [hk] at e1
  rw [← e4]
  exact e1

variable (hp : p.Valid) (hn : p.size = n) (h1 : types.length = n) (h2 : evals.length = n) (h3 : out1.length = n) (h4 : out2.length = n) (hperm : IsPerm n perm)
include hp hn h1 h2 h3 h4 hperm

theorem coreK : ∃ s defl cnt c i5 cs u l d i2 i4 i2',
    DistPart.stablePartition p.dist types evals perm out1 out2 =
      some ⟨countNonDeflated types, sums cnt p.dist.rank (ev_sort_order .Deflated), [u, d, l], s, c, i5, i4, i6Loop (cs.zip i4) 0, i2'⟩ ∧
    (s = perm.filter (fun i => types[i]? ≠ some .Deflated) ++ defl ∧ defl.Perm (select types .Deflated perm) ∧ SortedAlong evals defl ∧ IsPerm n s) ∧
    (∀ r, sums cnt r (ev_sort_order .Deflated) = (typeOnRank p types r .UpperHalf s).length + (typeOnRank p types r .Dense s).length + (typeOnRank p types r .LowerHalf s).length) ∧
    (∀ r, 0 ≤ r → r < p.grid → ∀ l < localColumns p r, c[localColumn p r l]? = (localOrder p types r s)[l]?) ∧
    (IsPerm n c ∧ ∀ g x : Nat, c[g]? = some x → p.owner x = p.owner g) ∧
    localIndex p.dist c = some i5 ∧
    (cs.length = n ∧ ∀ g : Nat, cs[g]? = c[g]?.bind fun i : Nat => types[i]?) ∧
    u = firstDense cs ∧ lastLoop (fun t => decide (.Deflated ≠ t)) cs cs.length = some l ∧
    lastLoop (fun t => decide (.LowerHalf ≠ t ∧ .Deflated ≠ t)) cs l = some d ∧
    invertIndex s perm = some i2 ∧ applyIndex c i2 = some i4 ∧ invertIndex (i6Loop (cs.zip i4) 0) i2 = some i2' ∧
    (i4.length = n ∧ (∀ g a : Nat, i4[g]? = some a → s[a]? = c[g]?) ∧ IsPerm n i4) ∧ IsPerm n (i6Loop (cs.zip i4) 0) ∧
    ∀ e < n, ∃ a, (i6Loop (cs.zip i4) 0)[e]? = some a ∧ (a < countNonDeflated types ↔ cs[e]? ≠ some .Deflated) := by
  obtain ⟨s, defl, a1, a2, a3, a4, a5⟩ := sorted_part h1 h2 h3 hperm
  obtain ⟨cnt, c, b1, b2, b3, b4, b5⟩ := bins hp hn h1 a5 h4
  obtain ⟨b6, b7⟩ := coltype_perm hp hn h1 a5 b3 b5
  have hr := hp.2.2.2.2.2.1
  obtain ⟨i5, c1⟩ : ∃ i5, localIndex p.dist c = some i5 := by
    unfold localIndex
    refine mapOpt_isSome fun l hl => ?_
    have hl' : l < localColumns p p.rank := List.mem_range.1 hl
    obtain ⟨q1, q2, _, _⟩ := col_spec hp hn hr.1 hr.2 hl'
    have e : p.dist.global_element_from_local_element l = localColumn p p.rank l := q1
    rw [e, if_pos (by omega), Int.toNat_natCast, List.getElem?_eq_getElem (by omega), Option.map_some]
    exact ⟨_, rfl⟩
  obtain ⟨cs, d1⟩ : ∃ cs, mapOpt (fun i => types[i]?) c = some cs :=
    mapOpt_isSome fun i hi => ⟨_, List.getElem?_eq_getElem (by rw [h1]; exact b6.lt hi)⟩
  have d2 : cs.length = n := by rw [mapOpt_length d1, b3]
  have d3 := mapOpt_getElem? d1
  obtain ⟨l, e1, e2, _, _⟩ := lastLoop_spec (fun t => decide (.Deflated ≠ t)) cs cs.length (Nat.le_refl _)
  obtain ⟨d, e3, e4, _, _⟩ := lastLoop_spec (fun t => decide (.LowerHalf ≠ t ∧ .Deflated ≠ t)) cs l e2
  obtain ⟨i2, f1, f2, f3, f4⟩ := C34_invert a5 hperm.length
  obtain ⟨i4, g1, g2, g3⟩ := C34_apply b6 f2.length
  have g4 : ∀ g a : Nat, i4[g]? = some a → s[a]? = c[g]? := by
    intro g a h
    have hg : g < c.length := by rw [b3, ← g2]; exact (List.getElem?_eq_some_iff.1 h).1
    have := g3 g hg
    rw [h] at this
    obtain ⟨q1, q2⟩ := List.getElem?_eq_some_iff.1 this.symm
    have := f4 _ q1
    rw [q2] at this
    rw [this, List.getElem?_eq_getElem hg]
  have g5 : IsPerm n i4 := by
    refine isPerm_of_nodup ?_ g2 ?_
    · rw [List.Nodup, List.pairwise_iff_getElem]
      intro i j hi hj hij he
      have u1 := g4 i _ (List.getElem?_eq_getElem hi)
      have u2 := g4 j _ (List.getElem?_eq_getElem hj)
      rw [he, u2] at u1
      have hi' : i < c.length := by omega
      have hj' : j < c.length := by omega
      rw [List.getElem?_eq_getElem hi', List.getElem?_eq_getElem hj', Option.some.injEq] at u1
      have := (List.Nodup.getElem_inj_iff b6.nodup).1 u1
      omega
    · intro x hx
      obtain ⟨g, hg, e⟩ := List.getElem_of_mem hx
      have u := g4 g x (by rw [List.getElem?_eq_getElem hg, e])
      rw [List.getElem?_eq_getElem (show g < c.length by omega)] at u
      have := (List.getElem?_eq_some_iff.1 u).1
      rwa [a5.length] at this
  have hz : (cs.zip i4).length = n := by simp [d2, g2]
  have hz' : ∀ (g : Nat) (c : ColType) (a : Nat), (cs.zip i4)[g]? = some (c, a) ↔ cs[g]? = some c ∧ i4[g]? = some a := by
    intro g c a; exact List.getElem?_zip_eq_some
  obtain ⟨k1, k2⟩ := i6Loop_spec (cs.zip i4) 0
  -- deflated columns are behind the non-deflated ones in `s`
  have hks : (perm.filter fun i => types[i]? ≠ some .Deflated).length = countNonDeflated types := by
    have hd := filter_perm_len h1 hperm .Deflated
    have e1 := List.length_eq_length_filter_add (l := perm) (fun i => decide (types[i]? = some ColType.Deflated))
    have e2 : (perm.filter fun i => !decide (types[i]? = some ColType.Deflated)) = perm.filter fun i => types[i]? ≠ some .Deflated := by
      apply List.filter_congr; intro i _; simp
    rw [e2, hperm.length] at e1
    unfold select at hd
    unfold countNonDeflated
    rw [countP_eq, h1]
    have : cnt_sum types = cnt_sum types := rfl
    have e3 : (perm.filter fun i => decide (types[i]? = some ColType.Deflated)).length = types.count .Deflated := by
      rw [hd]; rfl
    omega
  have hcsn : cs.countP (fun c => decide (c ≠ .Deflated)) = countNonDeflated types := by
    have e : cs = (c.map fun i => types.getD i .Deflated) := by
      apply List.ext_getElem?
      intro g
      rw [d3 g, List.getElem?_map]
      cases hg : c[g]? with
      | none => rfl
      | some x =>
        have : x < types.length := by rw [h1]; exact b6.lt (List.mem_of_getElem? hg)
        simp [List.getElem?_eq_getElem this]
    have e2 : types = (List.range n).map fun i => types.getD i .Deflated := by
      apply List.ext_getElem
      · simp [h1]
      · intro i hi1 hi2
        simp [List.getElem?_eq_getElem hi1]
    rw [e]
    unfold countNonDeflated
    have pm : (c.map fun i => types.getD i ColType.Deflated).Perm ((List.range n).map fun i => types.getD i .Deflated) := List.Perm.map _ b6
    rw [← e2] at pm
    exact pm.countP_eq _
  have kd : ∀ g : Nat, cs[g]? = some .Deflated → ∀ a, i4[g]? = some a → countNonDeflated types ≤ a := by
    intro g hg a ha
    by_contra hlt
    have u := g4 g a ha
    rw [a2, List.getElem?_append_left (by rw [hks]; omega)] at u
    have hgl : g < c.length := by rw [b3, ← g2]; exact (List.getElem?_eq_some_iff.1 ha).1
    rw [List.getElem?_eq_getElem hgl] at u
    have hm := List.mem_of_getElem? u
    simp only [List.mem_filter, decide_eq_true_eq] at hm
    have := d3 g
    rw [hg, List.getElem?_eq_getElem hgl, Option.bind_some] at this
    exact hm.2 this.symm
  have k3 : ∀ g : Nat, g < n → (cs[g]? ≠ some .Deflated → (i6Loop (cs.zip i4) 0)[g]? = some ((cs.take g).countP fun c => decide (c ≠ .Deflated))) ∧
      (cs[g]? = some .Deflated → (i6Loop (cs.zip i4) 0)[g]? = i4[g]?) := by
    intro g hg
    have u1 : cs[g]? = some cs[g] := List.getElem?_eq_getElem (by omega)
    have u2 : i4[g]? = some i4[g] := List.getElem?_eq_getElem (by omega)
    have := k2 g _ _ ((hz' g _ _).2 ⟨u1, u2⟩)
    have tk : ((cs.zip i4).take g).countP (fun x => decide (x.1 ≠ .Deflated)) = (cs.take g).countP fun c => decide (c ≠ .Deflated) := by
      have : cs.take g = ((cs.zip i4).take g).map Prod.fst := by
        rw [List.map_take, List.map_fst_zip (by omega)]
      rw [this, List.countP_map]
      rfl
    refine ⟨fun h => ?_, fun h => ?_⟩
    · rw [this, if_pos (fun z => h (by rw [u1, z])), tk, Nat.zero_add]
    · rw [u1] at h
      rw [this, if_neg (fun z => z (Option.some.inj h)), u2]
  have cntlt : ∀ g : Nat, g < n → cs[g]? ≠ some .Deflated → (cs.take g).countP (fun c => decide (c ≠ .Deflated)) + 1 = (cs.take (g + 1)).countP fun c => decide (c ≠ .Deflated) := by
    intro g hg h
    have u1 : cs[g]? = some cs[g] := List.getElem?_eq_getElem (by omega)
    rw [List.take_succ_eq_append_getElem (by omega), List.countP_append]
    rw [u1] at h
    have : decide (cs[g] ≠ .Deflated) = true := by simpa using h
    rw [List.countP_singleton]
    simp [this]
  have cntmono : ∀ g g' : Nat, g ≤ g' → (cs.take g).countP (fun c => decide (c ≠ .Deflated)) ≤ (cs.take g').countP fun c => decide (c ≠ .Deflated) := by
    intro g g' h
    exact (List.Sublist.countP_le (List.take_sublist_take_left h))
  have cntle : ∀ g : Nat, (cs.take g).countP (fun c => decide (c ≠ .Deflated)) ≤ countNonDeflated types := by
    intro g
    rw [← hcsn]
    exact (List.Sublist.countP_le (List.take_sublist _ _))
  have k4 : IsPerm n (i6Loop (cs.zip i4) 0) := by
    have hlen : (i6Loop (cs.zip i4) 0).length = n := by rw [k1, hz]
    refine isPerm_of_nodup ?_ hlen ?_
    · rw [List.Nodup, List.pairwise_iff_getElem]
      intro i j hi hj hij he
      have he : (i6Loop (cs.zip i4) 0)[i]? = (i6Loop (cs.zip i4) 0)[j]? := by
        rw [List.getElem?_eq_getElem hi, List.getElem?_eq_getElem hj, he]
      by_cases x : cs[i]? = some .Deflated <;> by_cases y : cs[j]? = some .Deflated
      · rw [(k3 i (by omega)).2 x, (k3 j (by omega)).2 y, List.getElem?_eq_getElem (by omega), List.getElem?_eq_getElem (by omega), Option.some.injEq] at he
        have := (List.Nodup.getElem_inj_iff g5.nodup).1 he
        omega
      · rw [(k3 i (by omega)).2 x, (k3 j (by omega)).1 y] at he
        have := kd i x _ he
        have := cntlt j (by omega) y
        have := cntle (j + 1)
        omega
      · rw [(k3 i (by omega)).1 x, (k3 j (by omega)).2 y] at he
        have := kd j y _ he.symm
        have := cntlt i (by omega) x
        have := cntle (i + 1)
        omega
      · rw [(k3 i (by omega)).1 x, (k3 j (by omega)).1 y, Option.some.injEq] at he
        have := cntlt i (by omega) x
        have := cntmono (i + 1) j (by omega)
        omega
    · intro x hx
      obtain ⟨g, hg, e⟩ := List.getElem_of_mem hx
      have hx' : (i6Loop (cs.zip i4) 0)[g]? = some x := by rw [List.getElem?_eq_getElem hg, e]
      have hkn : countNonDeflated types ≤ n := by
        rw [← h1]; exact List.countP_le_length
      by_cases y : cs[g]? = some .Deflated
      · rw [(k3 g (by omega)).2 y] at hx'
        exact g5.lt (List.mem_of_getElem? hx')
      · rw [(k3 g (by omega)).1 y, Option.some.injEq] at hx'
        have := cntlt g (by omega) y
        have := cntle (g + 1)
        omega
  have k5 : ∀ e < n, ∃ a, (i6Loop (cs.zip i4) 0)[e]? = some a ∧ (a < countNonDeflated types ↔ cs[e]? ≠ some .Deflated) := by
    intro e he
    by_cases y : cs[e]? = some .Deflated
    · have u2 : i4[e]? = some i4[e] := List.getElem?_eq_getElem (by omega)
      refine ⟨_, ((k3 e he).2 y).trans u2, ?_⟩
      have := kd e y _ u2
      exact ⟨fun h => absurd h (by omega), fun h => absurd y h⟩
    · refine ⟨_, (k3 e he).1 y, fun _ => y, fun _ => ?_⟩
      have := cntlt e he y
      have := cntle (e + 1)
      omega
  obtain ⟨i2', m1, _, _, _⟩ := C34_invert k4 f2.length
  refine ⟨s, defl, cnt, c, i5, cs, firstDense cs, l, d, i2, i4, i2', ?_, ⟨a2, a3, a4, a5⟩, b4, b5, ⟨b6, b7⟩, c1, ⟨d2, d3⟩, rfl, e1, e3, f1, g1, m1, ⟨g2, g4, g5⟩, k4, k5⟩
  unfold DistPart.stablePartition
  simp only [a1, b1, b2, c1, d1, e1, e3, f1, g1, m1, Option.bind_some, Option.map_some]

/-- Like `coreK`, without its last part. -/
theorem core : ∃ s defl cnt c i5 cs u l d i2 i4 i2',
    DistPart.stablePartition p.dist types evals perm out1 out2 =
      some ⟨countNonDeflated types, sums cnt p.dist.rank (ev_sort_order .Deflated), [u, d, l], s, c, i5, i4, i6Loop (cs.zip i4) 0, i2'⟩ ∧
    (s = perm.filter (fun i => types[i]? ≠ some .Deflated) ++ defl ∧ defl.Perm (select types .Deflated perm) ∧ SortedAlong evals defl ∧ IsPerm n s) ∧
    (∀ r, sums cnt r (ev_sort_order .Deflated) = (typeOnRank p types r .UpperHalf s).length + (typeOnRank p types r .Dense s).length + (typeOnRank p types r .LowerHalf s).length) ∧
    (∀ r, 0 ≤ r → r < p.grid → ∀ l < localColumns p r, c[localColumn p r l]? = (localOrder p types r s)[l]?) ∧
    (IsPerm n c ∧ ∀ g x : Nat, c[g]? = some x → p.owner x = p.owner g) ∧
    localIndex p.dist c = some i5 ∧
    (cs.length = n ∧ ∀ g : Nat, cs[g]? = c[g]?.bind fun i : Nat => types[i]?) ∧
    u = firstDense cs ∧ lastLoop (fun t => decide (.Deflated ≠ t)) cs cs.length = some l ∧
    lastLoop (fun t => decide (.LowerHalf ≠ t ∧ .Deflated ≠ t)) cs l = some d ∧
    invertIndex s perm = some i2 ∧ applyIndex c i2 = some i4 ∧ invertIndex (i6Loop (cs.zip i4) 0) i2 = some i2' ∧
    (i4.length = n ∧ (∀ g a : Nat, i4[g]? = some a → s[a]? = c[g]?) ∧ IsPerm n i4) ∧ IsPerm n (i6Loop (cs.zip i4) 0) := by
  obtain ⟨s, defl, cnt, c, i5, cs, u, l, d, i2, i4, i2', q1, q2, q3, q4, q5, q6, q7, q8, q9, q10, q11, q12, q13, q14, q15, _⟩ := coreK hp hn h1 h2 h3 h4 hperm
  exact ⟨s, defl, cnt, c, i5, cs, u, l, d, i2, i4, i2', q1, q2, q3, q4, q5, q6, q7, q8, q9, q10, q11, q12, q13, q14, q15⟩

end DistPart
end DLAF
