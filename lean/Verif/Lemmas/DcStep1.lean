import Verif.Lemmas.DcWin
import Verif.Props.Deflate
/- First part of a merge. -/
namespace DLAF
open C34

/-- The index of a solved range: identity order for one tile, `i1` otherwise. -/
def SubIdx (nb m b e : Nat) (d0 : Nat → ℝ) (i1 : Nat → Nat) : Prop :=
  if e = b + 1 then ∀ i j, i ≤ j → j < probN nb m b e → d0 (b * nb + i) ≤ d0 (b * nb + j)
  else IsPerm (probN nb m b e) (winL i1 (b * nb) (probN nb m b e)) ∧
    SortedAlong (winL d0 (b * nb) (probN nb m b e)) (winL i1 (b * nb) (probN nb m b e))

section
variable {nb m ib is ie : Nat}

theorem initIdx_win (h : TileRange nb m ib ie) (f : Nat → Nat) :
    winL (initIdx nb m ib ie f) (ib * nb) (probN nb m ib ie) = List.range (probN nb m ib ie) := by
  refine winL_range _ _ _ fun i hi => ?_
  unfold initIdx
  have h1 := (h.mem (x := ib * nb + i)).2 ⟨by omega, by omega⟩
  rw [if_pos h1, Nat.mul_sub_right_distrib] at *
  have h2 := Nat.div_add_mod (ib * nb + i) nb
  rw [Nat.mul_comm] at h2
  have h3 := Nat.mul_le_mul_right nb h1.1
  omega

theorem initIdx_out (h : TileRange nb m ib ie) (f : Nat → Nat) {x : Nat} (hx : ¬ (ib * nb ≤ x ∧ x < ib * nb + probN nb m ib ie)) :
    initIdx nb m ib ie f x = f x := by
  unfold initIdx
  rw [if_neg (fun h' => hx (h.mem.1 h'))]

theorem addIdx_out (h : TileRange nb m ib ie) (f : Nat → Nat) (v : Nat) {x : Nat} (hx : ¬ (ib * nb ≤ x ∧ x < ib * nb + probN nb m ib ie)) :
    addIdx nb m ib ie v f x = f x := by
  unfold addIdx
  rw [if_neg (fun h' => hx (h.mem.1 h'))]

theorem joinIdx_out (h : TileRange nb m ib ie) (h1 : ib < is) (h2 : is < ie) (f : Nat → Nat) {x : Nat}
    (hx : ¬ (ib * nb ≤ x ∧ x < ib * nb + probN nb m ib ie)) : joinIdx nb m ib is ie f x = f x := by
  obtain ⟨s1, s2, -, -⟩ := h.split h1 h2
  unfold joinIdx
  rw [addIdx_out (h.right h2) _ _ (by omega)]
  split
  · rw [initIdx_out (h.right h2) _ (by omega)]
    split
    · rw [initIdx_out (h.left h1 h2) _ (by omega)]
    · rfl
  · split
    · rw [initIdx_out (h.left h1 h2) _ (by omega)]
    · rfl

/-- The index of one part as a list, after the initialization. -/
theorem subIdx_list {b e : Nat} {d0 : Nat → ℝ} {i1 i1' : Nat → Nat} (hs : SubIdx nb m b e d0 i1)
    (h1 : e = b + 1 → winL i1' (b * nb) (probN nb m b e) = List.range (probN nb m b e))
    (h2 : e ≠ b + 1 → winL i1' (b * nb) (probN nb m b e) = winL i1 (b * nb) (probN nb m b e)) :
    IsPerm (probN nb m b e) (winL i1' (b * nb) (probN nb m b e)) ∧
    SortedAlong (winL d0 (b * nb) (probN nb m b e)) (winL i1' (b * nb) (probN nb m b e)) := by
  unfold SubIdx at hs
  by_cases he : e = b + 1
  · rw [if_pos he] at hs
    rw [h1 he]
    refine ⟨List.Perm.refl _, ?_⟩
    rw [sortedAlong_win (fun i hi => List.mem_range.1 hi)]
    intro i j hij hj
    rw [List.length_range] at hj
    rw [getD_get (by rw [List.length_range]; omega), getD_get (by rw [List.length_range]; omega), List.getElem_range, List.getElem_range]
    exact hs i j hij hj
  · rw [if_neg he] at hs
    rw [h2 he]
    exact hs

theorem join_list (h : TileRange nb m ib ie) (h1 : ib < is) (h2 : is < ie) {d0 : Nat → ℝ} {i1 : Nat → Nat}
    (hs1 : SubIdx nb m ib is d0 i1) (hs2 : SubIdx nb m is ie d0 i1) :
    ∃ i2, sortIndex (probN nb m ib is) (winL d0 (ib * nb) (probN nb m ib ie)) (winL (joinIdx nb m ib is ie i1) (ib * nb) (probN nb m ib ie)) =
      some i2 ∧ IsPerm (probN nb m ib ie) i2 ∧ SortedAlong (winL d0 (ib * nb) (probN nb m ib ie)) i2 := by
  obtain ⟨s1, s2, -, -⟩ := h.split h1 h2
  have hl := h.left h1 h2
  have hr := h.right h2
  obtain ⟨j1, hj1⟩ : ∃ j1, j1 = if is = ib + 1 then initIdx nb m ib is i1 else i1 := ⟨_, rfl⟩
  obtain ⟨j2, hj2⟩ : ∃ j2, j2 = if is + 1 = ie then initIdx nb m is ie j1 else j1 := ⟨_, rfl⟩
  have e2 : ∀ x, ¬ (is * nb ≤ x ∧ x < is * nb + probN nb m is ie) → j2 x = j1 x := by
    intro x hx
    rw [hj2]
    split
    · exact initIdx_out hr _ hx
    · rfl
  have e1 : ∀ x, ¬ (ib * nb ≤ x ∧ x < ib * nb + probN nb m ib is) → j1 x = i1 x := by
    intro x hx
    rw [hj1]
    split
    · exact initIdx_out hl _ hx
    · rfl
  obtain ⟨p1, q1⟩ := subIdx_list (i1' := j2) hs1
    (fun he => by
      rw [winL_congr (g := j1) (off' := ib * nb) (fun i hi => e2 _ (by omega)), hj1, if_pos he]
      exact initIdx_win hl i1)
    (fun he => by
      rw [winL_congr (g := j1) (off' := ib * nb) (fun i hi => e2 _ (by omega)), hj1, if_neg he])
  obtain ⟨p2, q2⟩ := subIdx_list (i1' := j2) hs2
    (fun he => by
      rw [hj2, if_pos he.symm]
      exact initIdx_win hr j1)
    (fun he => by
      rw [hj2, if_neg (Ne.symm he)]
      exact winL_congr fun i hi => e1 _ (by omega))
  have hjoin : winL (joinIdx nb m ib is ie i1) (ib * nb) (probN nb m ib ie) =
      winL j2 (ib * nb) (probN nb m ib is) ++ addIndex (probN nb m ib is) (winL j2 (is * nb) (probN nb m is ie)) := by
    rw [s2, winL_append, s1]
    congr 1
    · refine winL_congr fun i hi => ?_
      unfold joinIdx
      rw [addIdx_out hr _ _ (by omega), ← hj1, ← hj2]
    · unfold addIndex
      unfold winL
      rw [List.map_map]
      refine List.map_congr_left fun i hi => ?_
      have hi := List.mem_range.1 hi
      unfold joinIdx addIdx
      rw [if_pos (hr.mem.2 ⟨by omega, by omega⟩), ← hj1, ← hj2]
      rfl
  have hperm := C34_join p1 p2
  rw [← hjoin, ← s2] at hperm
  have hlen1 : (winL j2 (ib * nb) (probN nb m ib is)).length = probN nb m ib is := winL_length _ _ _
  refine C34_sort (winL_length _ _ _) hperm (by omega) ?_ ?_
  · rw [hjoin, List.take_left' hlen1]
    rw [sortedAlong_win (fun i hi => p1.lt hi)] at q1
    rw [sortedAlong_win (fun i hi => lt_of_lt_of_le (p1.lt hi) (by omega))]
    exact q1
  · rw [hjoin, List.drop_left' hlen1]
    have hlt : ∀ i ∈ addIndex (probN nb m ib is) (winL j2 (is * nb) (probN nb m is ie)), i < probN nb m ib ie := by
      intro i hi
      unfold addIndex at hi
      obtain ⟨a, ha, rfl⟩ := List.mem_map.1 hi
      have := p2.lt ha
      omega
    rw [sortedAlong_win (fun i hi => p2.lt hi)] at q2
    rw [sortedAlong_win hlt]
    intro i j hij hj
    unfold addIndex at hj ⊢
    rw [List.length_map] at hj
    have hg : ∀ {i}, i < (winL j2 (is * nb) (probN nb m is ie)).length →
        ((winL j2 (is * nb) (probN nb m is ie)).map (· + probN nb m ib is)).getD i 0 =
          (winL j2 (is * nb) (probN nb m is ie)).getD i 0 + probN nb m ib is := by
      intro i hi
      rw [getD_get (by rw [List.length_map]; exact hi), getD_get hi, List.getElem_map]
    rw [hg hj, hg (by omega)]
    have := q2 i j hij hj
    rw [Nat.add_comm _ (probN nb m ib is), Nat.add_comm _ (probN nb m ib is), ← Nat.add_assoc, ← Nat.add_assoc, s1]
    exact this

theorem initTypes_win (h : TileRange nb m ib ie) (h1 : ib < is) (h2 : is < ie) (c : Nat → ColType) {x : Nat} (hx : x < probN nb m ib ie) :
    initTypes nb m ib is ie c (ib * nb + x) = if x < probN nb m ib is then .UpperHalf else .LowerHalf := by
  obtain ⟨s1, s2, -, -⟩ := h.split h1 h2
  unfold initTypes
  rw [if_pos (h.mem.2 ⟨by omega, by omega⟩)]
  refine if_congr ?_ rfl rfl
  rw [Nat.div_lt_iff_lt_mul h.nbp]
  omega

/-- The rank-one vector. -/
theorem assembleZ_win (h : TileRange nb m ib ie) (h1 : ib < is) (h2 : is < ie) (rho : ℝ) (e0 : Elems ℝ) (z : Nat → ℝ) {x : Nat}
    (hx : x < probN nb m ib ie) :
    assembleZ nb m ib is ie rho e0 z (ib * nb + x) =
      if x < probN nb m ib is then (if rho < 0 then -1 else 1) * shE e0 (ib * nb) (probN nb m ib is - 1) x / Real.sqrt 2
      else shE e0 (ib * nb) (probN nb m ib is) x / Real.sqrt 2 := by
  obtain ⟨s1, s2, s3, -⟩ := h.split h1 h2
  have hp := (h.left h1 h2).pos
  unfold assembleZ shE
  rw [if_pos (h.mem.2 ⟨by omega, by omega⟩)]
  refine if_congr ?_ ?_ ?_
  · rw [Nat.div_lt_iff_lt_mul h.nbp]
    omega
  · rw [show (is - 1) * nb + (tileN nb m (is - 1) - 1) = ib * nb + (probN nb m ib is - 1) by omega]
  · rw [← s1, Nat.add_zero]

theorem maxAbs_nonneg (l : List ℝ) : 0 ≤ maxAbs l ∧ ∀ x ∈ l, |x| ≤ maxAbs l := by
  unfold maxAbs
  suffices H : ∀ (l : List ℝ) (a : ℝ), a ≤ l.foldl (fun a x => max a |x|) a ∧ ∀ x ∈ l, |x| ≤ l.foldl (fun a x => max a |x|) a by
    exact ⟨(H l 0).1, (H l 0).2⟩
  intro l
  induction l with
  | nil => intro a; exact ⟨le_refl _, fun x hx => absurd hx List.not_mem_nil⟩
  | cons y l ih =>
    intro a
    obtain ⟨i1, i2⟩ := ih (max a |y|)
    refine ⟨(le_max_left _ _).trans i1, fun x hx => ?_⟩
    rcases List.mem_cons.1 hx with rfl | hx
    · exact (le_max_right _ _).trans i1
    · exact i2 x hx

theorem maxAbs_le {l : List ℝ} {b : ℝ} (hb : 0 ≤ b) (h : ∀ x ∈ l, |x| ≤ b) : maxAbs l ≤ b := by
  unfold maxAbs
  suffices H : ∀ (l : List ℝ) (a : ℝ), a ≤ b → (∀ x ∈ l, |x| ≤ b) → l.foldl (fun a x => max a |x|) a ≤ b from H l 0 hb h
  intro l
  induction l with
  | nil => intro a ha _; exact ha
  | cons y l ih =>
    intro a ha hl
    exact ih _ (max_le ha (hl y List.mem_cons_self)) fun x hx => hl x (List.mem_cons_of_mem _ hx)

/-- The tolerance. -/
noncomputable def tolOf (P : DcPar) (nb m ib is ie : Nat) (rho : ℝ) (s : DcSt) : ℝ :=
  dcTol P.eps (winL s.d0 (ib * nb) (probN nb m ib ie)) (winL (assembleZ nb m ib is ie rho s.e0 s.z0) (ib * nb) (probN nb m ib ie))

theorem tolOf_nonneg {P : DcPar} (he : 0 ≤ P.eps) (rho : ℝ) (s : DcSt) : 0 ≤ tolOf P nb m ib is ie rho s := by
  unfold tolOf dcTol
  have := (maxAbs_nonneg (winL s.d0 (ib * nb) (probN nb m ib ie))).1
  exact mul_nonneg (by linarith) (le_max_of_le_left this)

theorem step1_ok {P : DcPar} (he : 0 ≤ P.eps) (h : TileRange nb m ib ie) (h1 : ib < is) (h2 : is < ie) (rho : ℝ) {s : DcSt}
    (hs1 : SubIdx nb m ib is s.d0 s.i1) (hs2 : SubIdx nb m is ie s.d0 s.i1) :
    ∃ (df : DeflSt) (i2 : List Nat), dcStep1 P nb m ib is ie rho s = some
      ({ s with
          i1 := joinIdx nb m ib is ie s.i1
          d0 := putF s.d0 (ib * nb) (probN nb m ib ie) df.d
          z0 := putF (assembleZ nb m ib is ie rho s.e0 s.z0) (ib * nb) (probN nb m ib ie) df.z
          c := putF (initTypes nb m ib is ie s.c) (ib * nb) (probN nb m ib ie) df.c
          e0 := putE s.e0 (ib * nb) (probN nb m ib ie) (applyRots (probN nb m ib ie) df.rots (shE s.e0 (ib * nb))) }, i2) ∧
      IsPerm (probN nb m ib ie) i2 ∧
      Deflates (2 * |rho|) (tolOf P nb m ib is ie rho s) (probN nb m ib ie) i2 (shF s.d0 (ib * nb))
        (shF (assembleZ nb m ib is ie rho s.e0 s.z0) (ib * nb)) (shF (initTypes nb m ib is ie s.c) (ib * nb)) df.d df.z df.c
        (applyRots (probN nb m ib ie) df.rots) := by
  obtain ⟨i2, e1, e2, e3⟩ := join_list h h1 h2 hs1 hs2
  rw [sortedAlong_win (fun i hi => e2.lt hi), e2.length] at e3
  obtain ⟨df, e4, e5⟩ := C52_deflates (rho := 2 * |rho|) (tol := tolOf P nb m ib is ie rho s) (n := probN nb m ib ie) (idx := i2)
    (d := shF s.d0 (ib * nb)) (z := shF (assembleZ nb m ib is ie rho s.e0 s.z0) (ib * nb))
    (c := shF (initTypes nb m ib is ie s.c) (ib * nb)) h.pos (tolOf_nonneg he rho s) e2 (fun i j hij hj => e3 i j hij hj) (by
      intro x hx
      show initTypes nb m ib is ie s.c (ib * nb + x) = _ ∨ initTypes nb m ib is ie s.c (ib * nb + x) = _
      rw [initTypes_win h h1 h2 s.c hx]
      split
      · exact Or.inl rfl
      · exact Or.inr rfl)
  refine ⟨df, i2, ?_, e2, e5⟩
  unfold dcStep1
  dsimp only
  rw [e1]
  simp only [Option.bind_eq_bind, Option.bind_some]
  unfold tolOf at e4
  rw [e4, Option.bind_some]

end
end DLAF
