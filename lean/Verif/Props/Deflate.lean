import Verif.Lemmas.DeflateLoop
/- C52: deflation. -/
namespace DLAF
open scoped Matrix.Norms.L2Operator
open C34

/-- C52: for every order, threshold, data and permutation of ascending `d`, and columns of type upper or lower half, deflation succeeds
and does what `Deflates` says. -/
theorem C52_deflates {rho tol : ℝ} {n : Nat} {idx : List Nat} {d z : Nat → ℝ} {c : Nat → ColType} (hn : 0 < n) (htol : 0 ≤ tol)
    (hp : IsPerm n idx) (hs : ∀ i j, i ≤ j → j < n → d (idx.getD i 0) ≤ d (idx.getD j 0))
    (hc : ∀ x < n, c x = .UpperHalf ∨ c x = .LowerHalf) :
    ∃ s, applyDeflation rho tol n idx d z c = some s ∧ Deflates rho tol n idx d z c s.d s.z s.c (applyRots n s.rots) := by
  have hlen := hp.length
  have hget : ∀ {j} (hj : j < n), idx.getD j 0 = idx[j]'(by omega) := fun hj => by
    rw [List.getD_eq_getElem?_getD, List.getElem?_eq_getElem (by omega), Option.getD_some]
  have hlt : ∀ j < n, idx.getD j 0 < n := fun j hj => by
    rw [hget hj]
    exact hp.lt (List.getElem_mem _)
  have hinj : ∀ i < n, ∀ j < n, idx.getD i 0 = idx.getD j 0 → i = j := fun i hi j hj h => by
    rw [hget hi, hget hj] at h
    exact (hp.nodup.getElem_inj_iff).1 h
  have hsur : ∀ x < n, ∃ j < n, idx.getD j 0 = x := fun x hx => by
    obtain ⟨j, hj, he⟩ := List.getElem_of_mem (hp.mem hx)
    exact ⟨j, by omega, by rw [hget (by omega)]; exact he⟩
  obtain ⟨s, hsdef⟩ : ∃ s, (upto 1 n).foldl (deflStep rho tol idx) ⟨0, d, z, c, []⟩ = s := ⟨_, rfl⟩
  have main : ∀ m, 1 ≤ m → m ≤ n → DInv rho tol n idx d z c m ((upto 1 m).foldl (deflStep rho tol idx) ⟨0, d, z, c, []⟩) ∧
      RInv tol n d z c m ((upto 1 m).foldl (deflStep rho tol idx) ⟨0, d, z, c, []⟩) := by
    intro m
    induction m with
    | zero => intro h; omega
    | succ m ih =>
      intro _ hm
      rcases Nat.eq_zero_or_pos m with rfl | hm0
      · have e : upto 1 (0 + 1) = [] := by simp [upto]
        rw [e, List.foldl_nil]
        have h0 := hlt 0 hn
        have hc0 : c (idx.getD 0 0) ≠ .Deflated := by
          rcases hc _ h0 with e | e <;> rw [e] <;> decide
        refine ⟨⟨Nat.zero_lt_one, fun j _ _ => ⟨rfl, rfl, rfl⟩, hc0, ?_, ?_, ?_, ?_, ?_, ?_⟩, ?_, ?_, ?_⟩
        · intro j h1 h2; dsimp only at h1; omega
        · intro j j' h1 h2; dsimp only at h2; omega
        · intro j _ hj; exact hs 0 j (Nat.zero_le _) hj
        · intro j hj; exact absurd hj (Nat.not_lt_zero _)
        · exact Or.inl fun j hj => absurd hj (Nat.not_lt_zero _)
        · intro j hj hd
          obtain rfl : j = 0 := by omega
          exact absurd hd hc0
        · exact Nat.le_refl 1
        · exact fun _ _ h => h
        · refine ⟨1, by rw [Matrix.transpose_one, Matrix.one_mul], fun Q => by rw [Matrix.mul_one]; rfl, ?_, ?_⟩
          · intro y
            simp only [Matrix.one_apply, mul_ite, mul_one, mul_zero, Finset.sum_ite_eq', Finset.mem_univ, if_true]
          · rw [Matrix.transpose_one, Matrix.one_mul, Matrix.mul_one, sub_self, List.length_nil, Nat.cast_zero, mul_zero]
            exact le_of_eq norm_zero
      · have e : upto 1 (m + 1) = upto 1 m ++ [m] := by
          unfold upto
          rw [show m + 1 - 1 = (m - 1) + 1 by omega, List.range'_concat]
          congr 2
          omega
        rw [e, List.foldl_append, List.foldl_cons, List.foldl_nil]
        obtain ⟨h1, h2⟩ := ih hm0 (by omega)
        exact dinv_step htol hlt hinj hs hc (by omega) h1 h2
  obtain ⟨hD, hR1, hR2, G, g1, g2, g3, g4⟩ := main n hn (Nat.le_refl _)
  rw [hsdef] at hD hR1 hR2 g2 g3 g4
  refine ⟨s, ?_, ?_⟩
  · unfold applyDeflation
    rw [if_pos ⟨hlen, fun i hi => hp.lt hi⟩, hsdef]
  have hi1 := hD.i1
  have below : ∀ {j}, j < n → s.c (idx.getD j 0) ≠ .Deflated → j ≤ s.i1 := by
    intro j hj hd
    by_contra h
    exact hd (hD.gone j (by omega) hj)
  refine ⟨⟨G, g1, g2, g3, g4.trans ?_⟩, ⟨_, hlt _ hi1, hD.act⟩, ?_, ?_, ?_, hR2⟩
  · refine mul_le_mul_of_nonneg_left ?_ (by linarith)
    have : ((s.rots.length + 1 : Nat) : ℝ) ≤ n := Nat.cast_le.2 hR1
    push_cast at this
    linarith
  · intro i j hij hj hdi hdj
    exact hD.asc i j hij (below hj hdj) hdi hdj
  · intro x hx y hy hxy hdx hdy
    obtain ⟨i, hi, rfl⟩ := hsur x hx
    obtain ⟨j, hj, rfl⟩ := hsur y hy
    have hij : i ≠ j := fun e => hxy (by rw [e])
    have bi := below hi hdx
    have bj := below hj hdy
    rcases Nat.lt_or_eq_of_le bi with h | h
    · exact hD.big i h hdx
    · rcases hD.fresh with hf | hf
      · exact absurd (hf j (by omega)) hdy
      · rw [h]; exact hf
  · intro x hx hd
    obtain ⟨i, hi, rfl⟩ := hsur x hx
    exact hD.small i hi hd

/-- C52: an order of the wrong length or with an index out of range is not accepted. -/
theorem C52_rejects {rho tol : ℝ} {n : Nat} {idx : List Nat} {d z : Nat → ℝ} {c : Nat → ColType}
    (h : idx.length ≠ n ∨ ∃ i ∈ idx, n ≤ i) : applyDeflation rho tol n idx d z c = none := by
  unfold applyDeflation
  rw [if_neg]
  rintro ⟨h1, h2⟩
  rcases h with h | ⟨i, hi, h⟩
  · exact h h1
  · have := h2 i hi
    omega

/-- Three values, two of them equal (rotated), one with `z = 0` (deflated). -/
example : ∃ s, applyDeflation 1 0 3 [1, 0, 2] (fun i => if i = 2 then 5 else 4) (fun i => if i = 2 then 0 else 1)
    (fun i => if i < 2 then .UpperHalf else .LowerHalf) = some s ∧
    Deflates 1 0 3 [1, 0, 2] (fun i => if i = 2 then 5 else 4) (fun i => if i = 2 then 0 else 1)
      (fun i => if i < 2 then .UpperHalf else .LowerHalf) s.d s.z s.c (applyRots 3 s.rots) := by
  refine C52_deflates (by omega) (le_refl _) ?_ ?_ ?_
  · show [1, 0, 2].Perm (List.range 3)
    decide
  · intro i j hij hj
    have hi : i = 0 ∨ i = 1 ∨ i = 2 := by omega
    have hj : j = 0 ∨ j = 1 ∨ j = 2 := by omega
    rcases hi with rfl | rfl | rfl <;> rcases hj with rfl | rfl | rfl <;> first | omega | norm_num
  · intro x _
    split
    · exact Or.inl rfl
    · exact Or.inr rfl

/-- The equal values 4 are rotated into one: one entry remains. -/
example : (applyDeflation 1 0 2 [0, 1] (fun _ => 4) (fun _ => 1) (fun i => if i = 0 then .UpperHalf else .LowerHalf)).map
    (fun s => (s.c 0, s.c 1, s.rots.length)) = some (.Dense, .Deflated, 1) := by
  have h : upto 1 2 = [1] := by decide
  have h1 : ¬ ((1 : ℝ) ≤ 0) := not_le.2 one_pos
  simp [applyDeflation, h, deflStep, deflRot, setF, h1]

end DLAF
