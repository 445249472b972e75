import Verif.Lemmas.DistT2BStep
/- The collectives of the distributed back-transformation from tridiagonal to band form. -/
namespace DLAF
namespace DistT2B
variable {K : Type*} [Field K] [StarRing K] {P PC : Params2} {n b i j : Nat}

/-- The signatures of a block on process `r`. -/
theorem step_sigs (E : T2BEnv K) (c : Chan) (r : Coord2) (R Q RC : Int) (ac : Bool) (h1 : rankRow b (P.on r) i = R) (h2 : partner b (P.on r) i = Q)
    (h3 : rankCol b (P.on r) j = RC) (h4 : acrossRanks n b (PC.on r) i = ac) :
    sigs c (step n b (P.on r) (PC.on r) i j E) =
      (if 1 < P.col.grid ∧ r.row = R ∧ Chan.row r.row = c then [.bcast RC] else []) ++
      (if (PC.col.onRank r.col).dist.localNrTiles = 0 then [] else
        (if (r.row = R ∨ r.row = Q) ∧ ac = true ∧ Chan.duo 0 r.col R Q 0 = c then [.bcast 0] else []) ++
        (irange 0 (PC.col.onRank r.col).dist.localNrTiles).flatMap fun je =>
          if (r.row = R ∨ r.row = Q) ∧ ac = true ∧ Chan.duo 1 r.col (min R Q) (max R Q) (je + i * (PC.col.onRank r.col).dist.localNrTiles) = c then [.exchange] else []) := by
  have k1 : (P.on r).row.rank = r.row := rfl
  have k2 : (P.on r).col.rank = r.col := rfl
  have k3 : (P.on r).col.grid = P.col.grid := rfl
  have k4 : (PC.on r).col.localNrTiles = (PC.col.onRank r.col).dist.localNrTiles := rfl
  have hat : ac = true → acrossTiles n b i = true := by
    intro h
    rw [← h4] at h
    unfold acrossRanks at h
    simp only [Bool.and_eq_true] at h
    exact h.1
  have e1 : sigs c (rowBcast (K := K) n b (P.on r) i j) = if 1 < P.col.grid ∧ r.row = R ∧ Chan.row r.row = c then [.bcast RC] else [] := by
    unfold rowBcast
    rw [k1, k2, k3, h1, h3]
    by_cases h : 1 < P.col.grid ∧ r.row = R
    · rw [if_pos h]
      have e : sigs c (if r.col = RC then bcastSend (Chan.row r.row) RC fun s => (readHH n b (P.on r) i j s).map fun x => (s, x)
          else bcastRecv (Chan.row r.row) RC (storePanel (K := K) b (P.on r) i (hhSize n b i j).1 (hhSize n b i j).2)) = if Chan.row r.row = c then [.bcast RC] else [] := by
        split
        · rw [sigs_bcastSend]
        · rw [sigs_bcastRecv]
      rw [e]
      by_cases hc : Chan.row r.row = c
      · rw [if_pos hc, if_pos ⟨h.1, h.2, hc⟩]
      · rw [if_neg hc, if_neg (fun z => hc z.2.2)]
    · rw [if_neg h, if_neg (fun z => h ⟨z.1, z.2.1⟩)]; rfl
  have e2 : sigs c (colSend (K := K) n b (P.on r) (PC.on r) i j) = if (r.row = R ∨ r.row = Q) ∧ ac = true ∧ Chan.duo 0 r.col R Q 0 = c then [.bcast 0] else [] := by
    unfold colSend
    dsimp only
    rw [k1, k2, h1, h2, h4]
    by_cases ha : ac = true
    · rw [if_pos ha]
      by_cases hR : r.row = R
      · rw [if_pos hR, sigs_bcastSend]
        by_cases hc : Chan.duo 0 r.col R Q 0 = c
        · rw [if_pos hc, if_pos ⟨.inl hR, ha, hc⟩]
        · rw [if_neg hc, if_neg (fun z => hc z.2.2)]
      · rw [if_neg hR]
        by_cases hQ : r.row = Q
        · rw [if_pos hQ, sigs_bcastRecv]
          by_cases hc : Chan.duo 0 r.col R Q 0 = c
          · rw [if_pos hc, if_pos ⟨.inr hQ, ha, hc⟩]
          · rw [if_neg hc, if_neg (fun z => hc z.2.2)]
        · rw [if_neg hQ, if_neg (fun z => z.1.elim hR hQ)]; rfl
    · rw [if_neg ha, if_neg (fun z => ha z.2.1)]; rfl
  have e3 : (r.row = R ∨ r.row = Q) → ∀ je, sigs c (update n b (P.on r) (PC.on r) i j E je) =
      if (r.row = R ∨ r.row = Q) ∧ ac = true ∧ Chan.duo 1 r.col (min R Q) (max R Q) (je + i * (PC.col.onRank r.col).dist.localNrTiles) = c then [.exchange] else [] := by
    intro hin je
    unfold update
    rw [h4]
    by_cases ha : ac = true
    · rw [if_neg (by rw [hat ha]; simp), if_neg (by rw [ha]; simp), sigs_append, sigs_append]
      unfold w2Sum
      dsimp only
      rw [k1, k2, k4]
      have hm : min r.row (mate b (P.on r) i) = min R Q ∧ max r.row (mate b (P.on r) i) = max R Q := by
        unfold mate isTop
        rw [k1, h1, h2]
        by_cases hR : r.row = R
        · rw [if_pos (by simpa using hR), hR]; exact ⟨rfl, rfl⟩
        · rw [if_neg (by simpa using hR), hin.resolve_left hR]; exact ⟨min_comm _ _, max_comm _ _⟩
      rw [hm.1, hm.2]
      simp only [sigs, List.nil_append, List.append_nil]
      by_cases hc : Chan.duo 1 r.col (min R Q) (max R Q) (je + i * (PC.col.onRank r.col).dist.localNrTiles) = c
      · rw [if_pos hc, if_pos ⟨hin, ha, hc⟩]
      · rw [if_neg hc, if_neg (fun z => hc z.2.2)]
    · rw [if_pos (show ac = false by simpa using ha)]
      have e : (if (r.row = R ∨ r.row = Q) ∧ ac = true ∧ Chan.duo 1 r.col (min R Q) (max R Q) (je + i * (PC.col.onRank r.col).dist.localNrTiles) = c then
          [Sig.exchange] else []) = [] := if_neg (fun z => ha z.2.1)
      rw [e]
      split <;> rfl
  unfold step
  by_cases hi : involved n b (P.on r) (PC.on r) i = true
  · have hin : r.row = R ∨ r.row = Q := by
      unfold involved at hi
      rw [k1, h1, h2] at hi
      simp only [Bool.or_eq_true, Bool.and_eq_true, decide_eq_true_eq] at hi
      exact hi.imp id And.left
    rw [if_pos hi, sigs_append, e1, k4]
    congr 1
    split
    · rfl
    · rw [sigs_append, sigs_append, e2, sigs_flatMap]
      simp only [sigs, List.append_nil]
      congr 1
      exact List.flatMap_congr fun je _ => e3 hin je
  · have hR : ¬ r.row = R := by
      intro h
      apply hi
      unfold involved
      rw [k1, h1]
      simp [h]
    have hQ : ¬ (r.row = Q ∧ ac = true) := by
      intro h
      apply hi
      unfold involved
      rw [k1, h2, h4]
      simp [h.1, h.2]
    have hno : ∀ x, ¬ ((r.row = R ∨ r.row = Q) ∧ ac = true ∧ x) := fun x z => hQ ⟨z.1.resolve_left hR, z.2.1⟩
    rw [if_neg hi, if_neg (fun z => hR z.2.1), if_neg (hno _)]
    simp only [sigs, List.nil_append]
    split
    · rfl
    · symm
      rw [List.flatMap_eq_nil_iff]
      exact fun je _ => if_neg (hno _)

/-- All members of every communicator agree on the sequence of collectives and messages. -/
theorem program_sigs {cplx : Bool} {E : Coord2 → T2BEnv K} (hE : ∀ r, (E r).cplx = cplx) (pipelines : Nat) :
    SameCollectives P.ranks fun r => program (E r) pipelines b (P.on r) (PC.on r) := by
  intro c r _ s _ hcr hcs
  beta_reduce
  have k : ∀ r, program (E r) pipelines b (P.on r) (PC.on r) =
      if ¬ (2 ≤ b ∧ cmod P.row.dist.tileSize b = 0) then [.loc fun _ => none] else
      if P.row.size = 0 ∨ P.col.size = 0 ∨ PC.row.size = 0 ∨ PC.col.size = 0 then [] else
      if t2bSweeps cplx P.row.size.toNat = 0 then [] else
      if pipelines < 2 then [.loc fun _ => none] else
      (epochs cplx P.row.size.toNat b).flatMap fun z => step P.row.size.toNat b (P.on r) (PC.on r) z.1 z.2 (E r) := by
    intro r
    unfold program
    rw [hE r]
    rfl
  rw [k r, k s]
  split
  · rfl
  split
  · rfl
  split
  · rfl
  split
  · rfl
  rw [sigs_flatMap, sigs_flatMap]
  refine List.flatMap_congr fun z _ => ?_
  rw [step_sigs (E r) c r _ _ _ _ rfl rfl rfl rfl, step_sigs (E s) c s (rankRow b (P.on r) z.1) (partner b (P.on r) z.1) (rankCol b (P.on r) z.2)
    (acrossRanks P.row.size.toNat b (PC.on r) z.1) rfl rfl rfl rfl]
  generalize rankRow b (P.on r) z.1 = R
  generalize partner b (P.on r) z.1 = Q
  generalize acrossRanks P.row.size.toNat b (PC.on r) z.1 = ac
  have hnil : ∀ l : List Int, List.flatMap (fun _ => ([] : List Sig)) l = [] := fun l => List.flatMap_eq_nil_iff.2 fun _ _ => rfl
  cases c with
  | row x =>
    have e1 : r.row = x := by simpa [Chan.has] using hcr
    have e2 : s.row = x := by simpa [Chan.has] using hcs
    rw [e1, e2]
    congr 1
    simp [hnil]
  | col x => simp [hnil]
  | pair x a d => simp [hnil]
  | full x => simp [hnil]
  | duo cl x a d tag =>
    have e1 : r.col = x ∧ (r.row = a ∨ r.row = d) := by simpa [Chan.has] using hcr
    have e2 : s.col = x ∧ (s.row = a ∨ s.row = d) := by simpa [Chan.has] using hcs
    rw [e1.1, e2.1]
    congr 1
    · rw [if_neg (fun z => Chan.noConfusion z.2.2), if_neg (fun z => Chan.noConfusion z.2.2)]
    · split
      · rfl
      · congr 1
        · by_cases h : ac = true ∧ Chan.duo 0 x R Q 0 = Chan.duo cl x a d tag
          · have h' := h.2
            injection h' with _ _ u v _
            rw [if_pos ⟨by rw [u, v]; exact e1.2, h⟩, if_pos ⟨by rw [u, v]; exact e2.2, h⟩]
          · rw [if_neg (fun z => h z.2), if_neg (fun z => h z.2)]
        · refine List.flatMap_congr fun je _ => ?_
          by_cases h : ac = true ∧ Chan.duo 1 x (min R Q) (max R Q) (je + z.1 * (PC.col.onRank x).dist.localNrTiles) = Chan.duo cl x a d tag
          · have h' := h.2
            injection h' with _ _ u v _
            have hx := e1.2
            have hy := e2.2
            rw [if_pos ⟨by omega, h⟩, if_pos ⟨by omega, h⟩]
          · rw [if_neg (fun z => h z.2), if_neg (fun z => h z.2)]

end DistT2B
end DLAF
