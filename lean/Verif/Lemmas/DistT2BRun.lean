import Verif.Lemmas.DistT2BTasks2
import Verif.Lemmas.DistRotRun
/- The phases of a block in the distributed back-transformation from tridiagonal to band form. -/
namespace DLAF
namespace DistT2B
open scoped Classical

theorem duo_has {cl j a b tag : Int} {r : Coord2} : (Chan.duo cl j a b tag).has r = true ↔ r.col = j ∧ (r.row = a ∨ r.row = b) := by
  simp [Chan.has]

theorem row_has {i : Int} {r : Coord2} : (Chan.row i).has r = true ↔ r.row = i := by simp [Chan.has]

section
variable {K : Type*} [RCLike K] {P : Params2} {cc : Params} {n mb m nbe b t : Nat} (G : Geo P cc n mb m nbe b t)
variable {cplx : Bool} (hn : (if cplx then 1 else 2) < n) {j st : Nat} (hz : IsBlock cplx n b (j + st, j))
variable {E : Coord2 → T2BEnv K} (hE : ∀ r, (E r).cplx = cplx) (hG : ∀ r, 0 < (E r).group) (hl : ∀ r, LarftSpec (E r).larft) {V : Elems K}

/-- The processes with rows of the block. -/
def inv (P : Params2) (n b t i : Nat) (r : Coord2) : Prop := r.row = own P t i ∨ ((i + 1) * b < n ∧ r.row = own P t (i + 1))

/-- The number of local tile columns of `mat_e`. -/
def nc (cc : Params) (r : Coord2) : Int := (cc.onRank r.col).dist.localNrTiles

include G hn hz

/-- Phase A: the reflectors to the processes of the row. -/
theorem rowPhase {g : Glob (DT2BSt K) (Blk K)} (hc : Clean P.ranks g) (hhh : ∀ r ∈ P.ranks, WinAt P n mb n mb r V (g.st r).hh) :
    ∃ g', Runs (fun r => if r ∈ P.ranks then rowBcast n b (P.on r) (j + st) j else []) g g' ∧ Clean P.ranks g' ∧
      ∀ r ∈ P.ranks, (∃ p, g'.st r = { g.st r with pHH := p }) ∧
        (r.row = own P t (j + st) → r.col ≠ ownC P t j → PanAt P n b r (j + st) j V (g'.st r)) := by
  have hi := G.lt_i hn hz
  have hj := G.lt_j hn hz
  have o1 := G.own_range (j + st)
  have o2 := G.ownC_range j
  have hroot : (⟨own P t (j + st), ownC P t j⟩ : Coord2) ∈ P.ranks := by
    rw [Params2.mem_ranks]
    intro c
    cases c
    · exact o1
    · exact o2
  obtain ⟨x, x1, x2⟩ := G.readHH hroot hi hj rfl rfl (hhh _ hroot)
  have hst : ∀ r, ∃ p, r ∈ P.ranks → r.row = own P t (j + st) →
      storePanel b (P.on r) (j + st) (hhSize n b (j + st) j).1 (hhSize n b (j + st) j).2 (g.st r) x = some { g.st r with pHH := p } ∧
      PanAt P n b r (j + st) j V { g.st r with pHH := p } := by
    intro r
    by_cases h : r ∈ P.ranks ∧ r.row = own P t (j + st)
    · obtain ⟨p, p1⟩ := G.storePanel h.1 hn hz (.inl h.2) (s := g.st r) x2 rfl rfl
      exact ⟨p, fun _ _ => p1⟩
    · exact ⟨(g.st r).pHH, fun z1 z2 => absurd ⟨z1, z2⟩ h⟩
  choose p hp using hst
  obtain ⟨g', r1, c1, s1⟩ := bcast_phase (Params2.ranks_nodup P) hc
    (p := fun r => if r ∈ P.ranks then rowBcast n b (P.on r) (j + st) j else [])
    (fun r => if 1 < P.col.grid ∧ r.row = own P t (j + st) then some (.row r.row) else none) (ownC P t j)
    (fun r s => (readHH n b (P.on r) (j + st) j s).map fun x => (s, x))
    (fun r => storePanel b (P.on r) (j + st) (hhSize n b (j + st) j).1 (hhSize n b (j + st) j).2)
    (fun r => if r.col = ownC P t j then g.st r else { g.st r with pHH := p r }) (fun _ => x)
    (fun r hr => by
      beta_reduce
      rw [if_pos hr]
      unfold rowBcast
      rw [G.rankRow hr, G.rankCol hr]
      by_cases h : 1 < P.col.grid ∧ r.row = own P t (j + st)
      · rw [if_pos h]
        have h' : 1 < (P.on r).col.grid ∧ (P.on r).row.rank = own P t (j + st) := h
        rw [if_pos h']
        dsimp only
        by_cases hcl : r.col = ownC P t j
        · have e : r = (Chan.row r.row).rankOf (ownC P t j) := by rw [← hcl]; rfl
          have hcl' : (P.on r).col.rank = ownC P t j := hcl
          rw [if_pos e, if_pos hcl']
          rfl
        · have e : r ≠ (Chan.row r.row).rankOf (ownC P t j) := fun z => hcl (by rw [z]; rfl)
          have hcl' : ¬ (P.on r).col.rank = ownC P t j := hcl
          rw [if_neg e, if_neg hcl']
          rfl
      · rw [if_neg h]
        have h' : ¬ (1 < (P.on r).col.grid ∧ (P.on r).row.rank = own P t (j + st)) := h
        rw [if_neg h'])
    (fun r hr => if_neg hr)
    (fun r hr c hcr => by
      beta_reduce at hcr
      by_cases h : 1 < P.col.grid ∧ r.row = own P t (j + st)
      · rw [if_pos h] at hcr
        obtain rfl := Option.some.inj hcr
        refine ⟨row_has.2 rfl, fun s hs hh => ?_⟩
        have e := row_has.1 hh
        rw [if_pos ⟨h.1, by rw [e]; exact h.2⟩, e]
      · rw [if_neg h] at hcr
        exact absurd hcr (by simp))
    (fun r hr c hcr => by
      beta_reduce at hcr
      by_cases h : 1 < P.col.grid ∧ r.row = own P t (j + st)
      · rw [if_pos h] at hcr
        obtain rfl := Option.some.inj hcr
        rw [h.2]
        exact hroot
      · rw [if_neg h] at hcr
        exact absurd hcr (by simp))
    (fun r hr c hcr hrt => by
      beta_reduce at hcr
      by_cases h : 1 < P.col.grid ∧ r.row = own P t (j + st)
      · rw [if_pos h] at hcr
        obtain rfl := Option.some.inj hcr
        rw [h.2] at hrt
        have e : r = ⟨own P t (j + st), ownC P t j⟩ := hrt
        rw [if_pos (by rw [e]), e, x1, Option.map_some]
      · rw [if_neg h] at hcr
        exact absurd hcr (by simp))
    (fun r hr c hcr hrt => by
      beta_reduce at hcr
      by_cases h : 1 < P.col.grid ∧ r.row = own P t (j + st)
      · rw [if_pos h] at hcr
        obtain rfl := Option.some.inj hcr
        have e : ¬ r.col = ownC P t j := fun z => hrt (by rw [← z]; rfl)
        rw [if_neg e]
        exact (hp r hr h.2).1
      · rw [if_neg h] at hcr
        exact absurd hcr (by simp))
  refine ⟨g', r1, c1, fun r hr => ?_⟩
  have hs := s1 r
  have hrc := Params2.mem_ranks.1 hr .Col
  by_cases h : 1 < P.col.grid ∧ r.row = own P t (j + st)
  · rw [if_pos ⟨hr, by rw [if_pos h]; rfl⟩] at hs
    by_cases hcl : r.col = ownC P t j
    · rw [if_pos hcl] at hs
      exact ⟨⟨(g.st r).pHH, hs⟩, fun _ z => absurd hcl z⟩
    · rw [if_neg hcl] at hs
      refine ⟨⟨p r, hs⟩, fun z1 _ => ?_⟩
      rw [hs]
      exact (hp r hr z1).2
  · rw [if_neg (by rintro ⟨_, z⟩; rw [if_neg h] at z; exact absurd z (by simp))] at hs
    refine ⟨⟨(g.st r).pHH, hs⟩, fun z1 z2 => ?_⟩
    have a1 : 0 ≤ r.col := hrc.1
    have a2 : r.col < P.col.grid := hrc.2
    have : ¬ 1 < P.col.grid := fun z => h ⟨z, z1⟩
    omega

/-- Phase B: the reflectors to the partner row. -/
theorem colPhase {g : Glob (DT2BSt K) (Blk K)} (hc : Clean P.ranks g) (hhh : ∀ r ∈ P.ranks, WinAt P n mb n mb r V (g.st r).hh)
    (hp : ∀ r ∈ P.ranks, r.row = own P t (j + st) → r.col ≠ ownC P t j → PanAt P n b r (j + st) j V (g.st r)) :
    ∃ g', Runs (fun r => if r ∈ P.ranks ∧ inv P n b t (j + st) r ∧ nc cc r ≠ 0 then colSend n b (P.on r) ((PE P cc).on r) (j + st) j else []) g g' ∧ Clean P.ranks g' ∧
      ∀ r ∈ P.ranks, (∃ p, g'.st r = { g.st r with pHH := p }) ∧
        (inv P n b t (j + st) r ∧ nc cc r ≠ 0 → ¬ (r.row = own P t (j + st) ∧ r.col = ownC P t j) → PanAt P n b r (j + st) j V (g'.st r)) := by
  have hi := G.lt_i hn hz
  have hj := G.lt_j hn hz
  by_cases hac : (j + st + 1) * b < n ∧ own P t (j + st) ≠ own P t (j + st + 1)
  · have o1 := G.own_range (j + st)
    have hcl : ∀ r ∈ P.ranks, colSend n b (P.on r) ((PE P cc).on r) (j + st) j =
        (if r.row = own P t (j + st) then
          bcastSend (.duo 0 r.col (own P t (j + st)) (own P t (j + st + 1)) 0) 0 fun s =>
            ((if r.col = ownC P t j then readHH n b (P.on r) (j + st) j s else readPanel n b (P.on r) (j + st) j s).map fun x => (s, x))
        else if r.row = own P t (j + st + 1) then bcastRecv (.duo 0 r.col (own P t (j + st)) (own P t (j + st + 1)) 0) 0 (storePanel b (P.on r) (j + st) b b)
        else [] : List (Instr (DT2BSt K) (Blk K))) := by
      intro r hr
      unfold colSend
      rw [if_pos ((G.acrossRanks hr hi).2 hac), G.rankRow hr, G.rankCol hr, (G.partner hr _ hac.2).1]
      rfl
    have hB : (j + st + 1) * b = (j + st) * b + b := by rw [Nat.add_mul, Nat.one_mul]
    have hmin : min b (n - (j + st) * b) = b := by omega
    have hminj : min b (n - j * b) = b := by
      have : j * b ≤ (j + st) * b := Nat.mul_le_mul_right _ (by omega)
      omega
    have hx : ∀ q : Int, ∃ x : Blk K, (⟨own P t (j + st), q⟩ : Coord2) ∈ P.ranks →
        (if q = ownC P t j then readHH n b (P.on ⟨own P t (j + st), q⟩) (j + st) j (g.st ⟨own P t (j + st), q⟩)
          else readPanel n b (P.on ⟨own P t (j + st), q⟩) (j + st) j (g.st ⟨own P t (j + st), q⟩)) = some x ∧
        IsWin x V ((j + st) * b) (j * b) (min b (n - (j + st) * b)) (min b (n - j * b)) := by
      intro q
      by_cases hq : (⟨own P t (j + st), q⟩ : Coord2) ∈ P.ranks
      · by_cases hq2 : q = ownC P t j
        · obtain ⟨x, x1⟩ := G.readHH hq hi hj rfl hq2.symm (hhh _ hq)
          exact ⟨x, fun _ => by rw [if_pos hq2]; exact x1⟩
        · obtain ⟨x, x1⟩ := hp _ hq rfl hq2
          exact ⟨x, fun _ => by rw [if_neg hq2]; exact x1⟩
      · exact ⟨⟨0, 0, fun _ _ => 0⟩, fun z => absurd z hq⟩
    choose x hx using hx
    have hmem : ∀ r ∈ P.ranks, (⟨own P t (j + st), r.col⟩ : Coord2) ∈ P.ranks := by
      intro r hr
      rw [Params2.mem_ranks]
      intro c
      cases c
      · exact o1
      · exact Params2.mem_ranks.1 hr .Col
    have hst : ∀ r, ∃ p, r ∈ P.ranks → r.row = own P t (j + st + 1) →
        storePanel b (P.on r) (j + st) b b (g.st r) (x r.col) = some { g.st r with pHH := p } ∧ PanAt P n b r (j + st) j V { g.st r with pHH := p } := by
      intro r
      by_cases h : r ∈ P.ranks ∧ r.row = own P t (j + st + 1)
      · obtain ⟨p, p1⟩ := G.storePanel h.1 hn hz (.inr ⟨hac.1, h.2⟩) (h := b) (w := b) (s := g.st r) (hx _ (hmem r h.1)).2 hmin.symm hminj.symm
        exact ⟨p, fun _ _ => p1⟩
      · exact ⟨(g.st r).pHH, fun z1 z2 => absurd ⟨z1, z2⟩ h⟩
    choose p hpp using hst
    have hinv : ∀ r, inv P n b t (j + st) r ↔ (r.row = own P t (j + st) ∨ r.row = own P t (j + st + 1)) := fun r => by
      unfold inv; tauto
    obtain ⟨g', r1, c1, s1⟩ := bcast_phase (Params2.ranks_nodup P) hc
      (p := fun r => if r ∈ P.ranks ∧ inv P n b t (j + st) r ∧ nc cc r ≠ 0 then colSend n b (P.on r) ((PE P cc).on r) (j + st) j else [])
      (fun r => if inv P n b t (j + st) r ∧ nc cc r ≠ 0 then some (.duo 0 r.col (own P t (j + st)) (own P t (j + st + 1)) 0) else none) 0
      (fun r s => ((if r.col = ownC P t j then readHH n b (P.on r) (j + st) j s else readPanel n b (P.on r) (j + st) j s).map fun x => (s, x)))
      (fun r => storePanel b (P.on r) (j + st) b b)
      (fun r => if r.row = own P t (j + st) then g.st r else { g.st r with pHH := p r })
      (fun c => match c with | .duo _ q _ _ _ => x q | _ => ⟨0, 0, fun _ _ => 0⟩)
      (fun r hr => by
        beta_reduce
        by_cases h : inv P n b t (j + st) r ∧ nc cc r ≠ 0
        · rw [if_pos ⟨hr, h⟩, if_pos h, hcl r hr]
          dsimp only
          by_cases hrow : r.row = own P t (j + st)
          · have e : r = (Chan.duo 0 r.col (own P t (j + st)) (own P t (j + st + 1)) 0).rankOf 0 := by
              simp only [Chan.rankOf, if_true]
              rw [← hrow]
            rw [if_pos hrow, if_pos e]
          · have e : r ≠ (Chan.duo 0 r.col (own P t (j + st)) (own P t (j + st + 1)) 0).rankOf 0 := fun z => hrow (by
              have := congrArg Coord2.row z
              simpa only [Chan.rankOf, if_true] using this)
            rw [if_neg hrow, if_neg e, if_pos (((hinv r).1 h.1).resolve_left hrow)]
        · rw [if_neg (fun z => h z.2), if_neg h])
      (fun r hr => if_neg (fun z => hr z.1))
      (fun r hr c hcr => by
        beta_reduce at hcr
        by_cases h : inv P n b t (j + st) r ∧ nc cc r ≠ 0
        · rw [if_pos h] at hcr
          obtain rfl := Option.some.inj hcr
          refine ⟨duo_has.2 ⟨rfl, (hinv r).1 h.1⟩, fun s hs hh => ?_⟩
          obtain ⟨e1, e2⟩ := duo_has.1 hh
          have e3 : nc cc s = nc cc r := by unfold nc; rw [e1]
          rw [if_pos ⟨(hinv s).2 e2, by rw [e3]; exact h.2⟩, e1]
        · rw [if_neg h] at hcr
          exact absurd hcr (by simp))
      (fun r hr c hcr => by
        beta_reduce at hcr
        by_cases h : inv P n b t (j + st) r ∧ nc cc r ≠ 0
        · rw [if_pos h] at hcr
          obtain rfl := Option.some.inj hcr
          exact hmem r hr
        · rw [if_neg h] at hcr
          exact absurd hcr (by simp))
      (fun r hr c hcr hrt => by
        beta_reduce at hcr
        by_cases h : inv P n b t (j + st) r ∧ nc cc r ≠ 0
        · rw [if_pos h] at hcr
          obtain rfl := Option.some.inj hcr
          have hrow : r.row = own P t (j + st) := by
            have := congrArg Coord2.row hrt
            simpa only [Chan.rankOf, if_true] using this
          have e : r = ⟨own P t (j + st), r.col⟩ := by rw [← hrow]
          have hv := (hx r.col (hmem r hr)).1
          rw [← e] at hv
          dsimp only
          rw [if_pos hrow, hv, Option.map_some]
        · rw [if_neg h] at hcr
          exact absurd hcr (by simp))
      (fun r hr c hcr hrt => by
        beta_reduce at hcr
        by_cases h : inv P n b t (j + st) r ∧ nc cc r ≠ 0
        · rw [if_pos h] at hcr
          obtain rfl := Option.some.inj hcr
          have hrow : ¬ r.row = own P t (j + st) := fun z => hrt (by
            simp only [Chan.rankOf, if_true]
            rw [← z])
          rw [if_neg hrow]
          exact (hpp r hr (((hinv r).1 h.1).resolve_left hrow)).1
        · rw [if_neg h] at hcr
          exact absurd hcr (by simp))
    refine ⟨g', r1, c1, fun r hr => ?_⟩
    have hs := s1 r
    by_cases h : inv P n b t (j + st) r ∧ nc cc r ≠ 0
    · rw [if_pos ⟨hr, by rw [if_pos h]; rfl⟩] at hs
      by_cases hrow : r.row = own P t (j + st)
      · rw [if_pos hrow] at hs
        refine ⟨⟨(g.st r).pHH, hs⟩, fun _ z => ?_⟩
        rw [hs]
        exact hp r hr hrow fun w => z ⟨hrow, w⟩
      · rw [if_neg hrow] at hs
        refine ⟨⟨p r, hs⟩, fun z1 _ => ?_⟩
        rw [hs]
        exact (hpp r hr (((hinv r).1 z1.1).resolve_left hrow)).2
    · rw [if_neg (by rintro ⟨_, z⟩; rw [if_neg h] at z; exact absurd z (by simp))] at hs
      exact ⟨⟨(g.st r).pHH, hs⟩, fun z => absurd z h⟩
  · refine ⟨g, .nil (fun r => ?_) g, hc, fun r hr => ⟨⟨_, rfl⟩, fun z1 z2 => ?_⟩⟩
    · beta_reduce
      by_cases h : r ∈ P.ranks ∧ inv P n b t (j + st) r ∧ nc cc r ≠ 0
      · rw [if_pos h]
        unfold colSend
        rw [if_neg (fun z => hac ((G.acrossRanks h.1 hi).1 z))]
      · rw [if_neg h]
    · have hrow : r.row = own P t (j + st) := by
        rcases z1.1 with w | w
        · exact w
        · by_contra hcon
          exact hac ⟨w.1, fun e => hcon (by rw [e]; exact w.2)⟩
      exact hp r hr hrow fun w => z2 ⟨hrow, w⟩

end
end DistT2B
end DLAF
