import Verif.Lemmas.DistT2BStep
/- The distributed back-transformation from tridiagonal to band form: all the blocks. -/
namespace DLAF
namespace DistT2B
variable {K : Type*} [RCLike K] {P : Params2} {cc : Params} {n mb m nbe b t : Nat} {cplx : Bool} {E : Coord2 → T2BEnv K} {V : Elems K}

theorem blocks_runs (G : Geo P cc n mb m nbe b t) (hn : (if cplx then 1 else 2) < n) (hE : ∀ r, (E r).cplx = cplx) (hG : ∀ r, 0 < (E r).group)
    (hl : ∀ r, LarftSpec (E r).larft) : ∀ (l : List (Nat × Nat)), (∀ z ∈ l, IsBlock cplx n b z) → ∀ (D : Elems K) (g : Glob (DT2BSt K) (Blk K)), Clean P.ranks g →
    (∀ r ∈ P.ranks, Inv P cc n mb m nbe V D r (g.st r)) →
    ∃ g', Runs (fun r => if r ∈ P.ranks then l.flatMap fun z => step n b (P.on r) ((PE P cc).on r) z.1 z.2 (E r) else []) g g' ∧ Clean P.ranks g' ∧
      ∀ r ∈ P.ranks, Inv P cc n mb m nbe V (l.foldl (fun D z => blkF cplx n b m V z D) D) r (g'.st r)
  | [], _, _, g, hc, hI => ⟨g, Runs.nil (fun r => by simp) g, hc, hI⟩
  | z :: l, hz, D, g, hc, hI => by
    have h1 := hz z List.mem_cons_self
    obtain ⟨st, hst⟩ : ∃ st, z = (z.2 + st, z.2) := ⟨z.1 - z.2, by obtain ⟨_, a, _⟩ := h1; ext <;> simp; omega⟩
    rw [hst] at h1
    obtain ⟨g1, r1, c1, i1⟩ := step_runs G hn h1 hE hG hl hc hI
    rw [← hst] at i1
    obtain ⟨g2, r2, c2, i2⟩ := blocks_runs G hn hE hG hl l (fun y hy => hz y (List.mem_cons_of_mem _ hy)) _ g1 c1 i1
    refine ⟨g2, (r1.append r2).congr fun r => ?_, c2, i2⟩
    by_cases hr : r ∈ P.ranks
    · rw [if_pos hr, if_pos hr, if_pos hr, List.flatMap_cons, show z.1 = z.2 + st from congrArg Prod.fst hst]
    · rw [if_neg hr, if_neg hr, if_neg hr]; rfl

/-- The whole call. -/
theorem program_runs (G : Geo P cc n mb m nbe b t) (hE : ∀ r, (E r).cplx = cplx) (hG : ∀ r, 0 < (E r).group) (hl : ∀ r, LarftSpec (E r).larft) {pipelines : Nat}
    (hp : 2 ≤ pipelines) (C : Elems K) {g : Glob (DT2BSt K) (Blk K)} (hc : Clean P.ranks g) (hI : ∀ r ∈ P.ranks, Inv P cc n mb m nbe V C r (g.st r)) :
    ∃ g' C', Runs (fun r => if r ∈ P.ranks then program (E r) pipelines b (P.on r) ((PE P cc).on r) else []) g g' ∧
      (∀ r ∈ P.ranks, Inv P cc n mb m nbe V C' r (g'.st r)) ∧ toM n m C' = hhQ cplx n b V * toM n m C := by
  have hb := G.hb
  have s1 : ∀ r, (P.on r).row.size = n := fun r => G.row.size
  have s2 : ∀ r, (P.on r).col.size = n := fun r => G.col.size
  have s3 : ∀ r, ((PE P cc).on r).row.size = n := fun r => G.row.size
  have s4 : ∀ r, ((PE P cc).on r).col.size = m := fun r => G.ecol.size
  have s5 : ∀ r, ¬ ¬ (2 ≤ b ∧ cmod (P.on r).row.tileSize b = 0) := by
    intro r h
    refine h ⟨hb, ?_⟩
    have : (P.on r).row.tileSize = mb := G.row.tile
    rw [this, G.hmb]
    have : (0:Int) < b := by omega
    push_cast
    unfold cmod
    simp
  have e0 : ∀ r, (n = 0 ∨ m = 0 ∨ n ≤ (if cplx then 1 else 2)) → program (E r) pipelines b (P.on r) ((PE P cc).on r) = [] := by
    intro r h
    unfold program
    rw [if_neg (s5 r), s1, s2, s3, s4, hE]
    by_cases h0 : n = 0 ∨ m = 0
    · rw [if_pos (by omega)]
    · rw [if_neg (by omega), if_pos]
      unfold t2bSweeps
      cases cplx <;> simp at h ⊢ <;> omega
  by_cases h0 : n = 0 ∨ m = 0
  · refine ⟨g, C, Runs.nil (fun r => ?_) g, hI, ?_⟩
    · split
      · exact e0 r (by omega)
      · rfl
    · ext x y
      rcases h0 with h | h
      · exact absurd x.2 (by omega)
      · exact absurd y.2 (by omega)
  by_cases h1 : n ≤ (if cplx then 1 else 2)
  · refine ⟨g, C, Runs.nil (fun r => ?_) g, hI, ?_⟩
    · split
      · exact e0 r (by omega)
      · rfl
    · have : lastSweep cplx n = 0 := by
        unfold lastSweep
        cases cplx <;> simp at h1 ⊢ <;> omega
      unfold hhQ hhSweeps
      rw [this]
      simp
  have hn : (if cplx then 1 else 2) < n := by omega
  obtain ⟨g', r1, _, i1⟩ := blocks_runs G hn hE hG hl (epochs cplx n b) (fun z hz => (mem_epochs hb hn).1 hz) C g hc hI
  refine ⟨g', _, r1.congr fun r => ?_, i1, ?_⟩
  · by_cases hr : r ∈ P.ranks
    · rw [if_pos hr, if_pos hr]
      unfold program
      rw [if_neg (s5 r), s1, s2, s3, s4, hE, if_neg (by omega), if_neg, if_neg (by omega)]
      · simp
      · unfold t2bSweeps
        cases cplx <;> simp at hn ⊢ <;> omega
    · rw [if_neg hr, if_neg hr]
  · rw [foldl_mat (P := blkM cplx n b V) _ (fun z _ D => blkF_mat cplx n b m V z D), epochs_prod hb hn]

end DistT2B
end DLAF
