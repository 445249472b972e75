import Verif.Lemmas.DistRedHer2k
/- Distributed reduction to band: one iteration. -/
namespace DLAF
open scoped Classical
namespace DistRed
variable {K : Type*} [RCLike K] {P : Params2} {n nb band j : Nat} {dt : Coord2 → Dist1}

/-- `W = V T`, `X = A W`, `W2 = Wᴴ X` and `X - 1/2 V W2`. -/
noncomputable def eW (k : Nat) (V : Elems K) (F : Nat → Nat → K) : Elems K := fun x c => ∑ l ∈ Finset.range k, V x l * F l c
noncomputable def eX (r0 n : Nat) (A W : Elems K) : Elems K := fun x y => ∑ z ∈ Finset.Ico r0 n, lowE A x z * W z y
noncomputable def eW2 (r0 n : Nat) (W X : Elems K) : Elems K := fun l c => ∑ x ∈ Finset.Ico r0 n, star (W x l) * X x c
noncomputable def eX' (k : Nat) (V w2 X : Elems K) : Elems K := fun x c => -(1 / 2) * (∑ l ∈ Finset.range k, V x l * w2 l c) + X x c
noncomputable def trailX (n band j : Nat) (A V : Elems K) (F : Nat → Nat → K) : Elems K :=
  eX' (nr n band j) V (eW2 ((j + 1) * band) n (eW (nr n band j) V F) (eX ((j + 1) * band) n A (eW (nr n band j) V F)))
    (eX ((j + 1) * band) n A (eW (nr n band j) V F))

section
variable (h : Geo P n nb band j)
include h

theorem Geo.step_runs (hdt : TauInj P n nb band dt) {E : Coord2 → RedEnv K} (hE : ∀ r, 0 < (E r).availP) (hET : ∀ r, 0 < (E r).availT)
    {sb : K → Bool} (hgs : GoodSign sb) (hsb : ∀ r, (E r).signbit = sb) {A : Elems K} {T : Nat → K} {g : Glob (RbSt K) (Blk K)}
    (hcl : Clean P.ranks g) (hs : ∀ r ∈ P.ranks, PS P n nb band dt r A T (g.st r)) {st : PanelSt K}
    (hst : st = DLAF.panelFrom (cfg n nb band j sb) 1 (nr n band j) 0 ⟨A, fun i => T (j * band + i), fun _ _ => 0, 0⟩)
    {T' : Nat → K} (hT' : T' = fun i => if j * band ≤ i ∧ i < j * band + nr n band j then st.taus (i - j * band) else T i)
    {V : Elems K} (hV : V = fun x c => storedRefl band st.a x (j * band + c)) :
    ∃ g' F, Runs (fun r => if r ∈ P.ranks then step n nb band (E r) (P.on r) (dt r) j else []) g g' ∧ Clean P.ranks g' ∧
      (∀ r ∈ P.ranks, PS P n nb band dt r (updA n band j V (trailX n band j st.a V F) st.a) T' (g'.st r)) ∧
      (∀ c < nr n band j, ∀ i < nr n band j, c < i → F i c = 0) ∧
      1 - toM n (nr n band j) V * toM (nr n band j) (nr n band j) F * (toM n (nr n band j) V).conjTranspose =
        reflectorProd n V (fun i => T' (j * band + i)) (nr n band j) := by
  have hsub : ∀ r ∈ onCol P nb band j, r ∈ P.ranks := fun r hr => (mem_onCol.1 hr).1
  have hlt := h.r0_lt
  have hnt : ∀ r, ntiles (P.on r) = (((n + nb - 1) / nb : Nat) : Int) := fun r => h.ntiles_eq r
  obtain ⟨g1, F, r1, c1, p1, q1, hF, hmat⟩ := h.panel_part hdt hE hET hgs hsb hcl hs hst hT' hV
  -- V
  obtain ⟨g2, r2, c2, q2⟩ := h.mirror_runs RbSt.rV_ok RbSt.rVt_ok (fun _ _ => rfl) (eT := fun r => tEnd (P.on r))
    (e := (((n + nb - 1) / nb : Nat) : Int) - 1) (fun r => by unfold tEnd; rw [hnt]) (by omega) c1 (M := V) (fun r hr => (q1 r hr).1)
  have s2 : ∀ r ∈ P.ranks, PS P n nb band dt r st.a T' (g2.st r) ∧ HR P n nb band j r V (g2.st r).pV ∧
      HT P n nb band j ((((n + nb - 1) / nb : Nat) : Int) - 1) r V (g2.st r).pVt ∧ (g2.st r).pT = (g1.st r).pT := by
    intro r hr
    obtain ⟨p, pt, e, a, b⟩ := q2 r hr
    rw [e]
    exact ⟨⟨(p1 r hr).win, (p1 r hr).tau⟩, a, b, rfl⟩
  -- W
  obtain ⟨g3, r3, c3, q3, o3⟩ := Runs.locals_on (onCol_nodup (P := P) (nb := nb) (band := band) (j := j)) c2
    (fun r => (rows band (P.on r) j).map (setW n band (E r) (P.on r) j))
    (fun r s' => ∃ p, s' = { g2.st r with pW := p } ∧ HR P n nb band j r (eW (nr n band j) V F) p)
    (fun r hr => by
      obtain ⟨_, b, _, d⟩ := s2 r (hsub r hr)
      obtain ⟨p, a1, a2⟩ := h.setW_all (hsub r hr) (E := E r) hF b (by rw [d]; exact (q1 r hr).2)
      exact ⟨_, a1, p, rfl, a2⟩)
  have s3 : ∀ r ∈ P.ranks, PS P n nb band dt r st.a T' (g3.st r) ∧ HR P n nb band j r V (g3.st r).pV ∧
      HT P n nb band j ((((n + nb - 1) / nb : Nat) : Int) - 1) r V (g3.st r).pVt := by
    intro r hr
    obtain ⟨a, b, c, _⟩ := s2 r hr
    by_cases hr' : r ∈ onCol P nb band j
    · obtain ⟨p, e, _⟩ := q3 r hr'
      rw [e]
      exact ⟨⟨a.win, a.tau⟩, b, c⟩
    · rw [o3 r hr']
      exact ⟨a, b, c⟩
  obtain ⟨g4, r4, c4, q4⟩ := h.mirror_runs RbSt.rW_ok RbSt.rWt_ok (fun _ _ => rfl) (eT := fun r => tEnd (P.on r))
    (e := (((n + nb - 1) / nb : Nat) : Int) - 1) (fun r => by unfold tEnd; rw [hnt]) (by omega) c3 (M := eW (nr n band j) V F) (fun r hr => by
      obtain ⟨p, e, hp⟩ := q3 r hr
      rw [e]
      exact hp)
  have s4 : ∀ r ∈ P.ranks, PS P n nb band dt r st.a T' (g4.st r) ∧ HR P n nb band j r V (g4.st r).pV ∧
      HT P n nb band j ((((n + nb - 1) / nb : Nat) : Int) - 1) r V (g4.st r).pVt ∧ HR P n nb band j r (eW (nr n band j) V F) (g4.st r).pW ∧
      HT P n nb band j ((((n + nb - 1) / nb : Nat) : Int) - 1) r (eW (nr n band j) V F) (g4.st r).pWt := by
    intro r hr
    obtain ⟨a, b, c⟩ := s3 r hr
    obtain ⟨p, pt, e, d, f⟩ := q4 r hr
    rw [e]
    exact ⟨⟨a.win, a.tau⟩, b, c, d, f⟩
  -- X
  obtain ⟨g5, r5, c5, q5⟩ := h.hemm_runs c4 (A := st.a) (W := eW (nr n band j) V F) (fun r hr => (s4 r hr).1.win) (fun r hr => (s4 r hr).2.2.2.1)
    (fun r hr => (s4 r hr).2.2.2.2)
  have s5 : ∀ r ∈ P.ranks, PS P n nb band dt r st.a T' (g5.st r) ∧ HR P n nb band j r V (g5.st r).pV ∧
      HT P n nb band j ((((n + nb - 1) / nb : Nat) : Int) - 1) r V (g5.st r).pVt ∧ HR P n nb band j r (eW (nr n band j) V F) (g5.st r).pW := by
    intro r hr
    obtain ⟨a, b, c, d, _⟩ := s4 r hr
    obtain ⟨p, pt, e, _⟩ := q5 r hr
    rw [e]
    exact ⟨⟨a.win, a.tau⟩, b, c, d⟩
  obtain ⟨g6, r6, c6, q6, o6⟩ := h.xPart_runs c5 (V := V) (W := eW (nr n band j) V F) (X := eX ((j + 1) * band) n st.a (eW (nr n band j) V F))
    (w2 := eW2 ((j + 1) * band) n (eW (nr n band j) V F) (eX ((j + 1) * band) n st.a (eW (nr n band j) V F)))
    (fun r hr => (s5 r (hsub r hr)).2.1) (fun r hr => (s5 r (hsub r hr)).2.2.2) (fun r hr => by
      obtain ⟨p, pt, e, hp⟩ := q5 r (hsub r hr)
      rw [e]
      exact hp hr) rfl
  have s6 : ∀ r ∈ P.ranks, PS P n nb band dt r st.a T' (g6.st r) ∧ HR P n nb band j r V (g6.st r).pV ∧
      HT P n nb band j ((((n + nb - 1) / nb : Nat) : Int) - 1) r V (g6.st r).pVt := by
    intro r hr
    obtain ⟨a, b, c, _⟩ := s5 r hr
    by_cases hr' : r ∈ onCol P nb band j
    · obtain ⟨p, pt, e, _⟩ := q6 r hr'
      rw [e]
      exact ⟨⟨a.win, a.tau⟩, b, c⟩
    · rw [o6 r hr hr']
      exact ⟨a, b, c⟩
  obtain ⟨g7, r7, c7, q7, -⟩ := Runs.loc_on P.ranks_nodup c6 (fun _ s => some (RbSt.rXt.reset s)) (fun r s' => s' = RbSt.rXt.reset (g6.st r))
    (fun r _ => ⟨_, rfl, rfl⟩)
  have s7 : ∀ r ∈ P.ranks, PS P n nb band dt r st.a T' (g7.st r) ∧ HR P n nb band j r V (g7.st r).pV ∧
      HT P n nb band j ((((n + nb - 1) / nb : Nat) : Int) - 1) r V (g7.st r).pVt ∧ (g7.st r).pX = (g6.st r).pX := by
    intro r hr
    obtain ⟨a, b, c⟩ := s6 r hr
    rw [q7 r hr]
    exact ⟨⟨a.win, a.tau⟩, b, c, rfl⟩
  obtain ⟨e, he, hle, hge⟩ : ∃ e : Int, (∀ r, xtEnd nb band (P.on r) j = e) ∧ e ≤ (((n + nb - 1) / nb : Nat) : Int) ∧ (((n + nb - 1) / nb : Nat) : Int) - 1 ≤ e := by
    refine ⟨if ((DistRed.r0 band j / nb : Nat) : Int) = (((n + nb - 1) / nb : Nat) : Int) - 1 then (((n + nb - 1) / nb : Nat) : Int) else (((n + nb - 1) / nb : Nat) : Int) - 1,
      fun r => by unfold xtEnd; rw [hnt], ?_, ?_⟩
    · split <;> omega
    · split <;> omega
  obtain ⟨g8, r8, c8, q8⟩ := h.mirror_runs RbSt.rX_ok RbSt.rXt_ok (fun _ _ => rfl) (eT := fun r => xtEnd nb band (P.on r) j) he hle c7
    (M := trailX n band j st.a V F) (fun r hr => by
      obtain ⟨p, pt, e, hp⟩ := q6 r hr
      have : RbSt.rX.get (g7.st r) = p := by
        show (g7.st r).pX = p
        rw [(s7 r (hsub r hr)).2.2.2, e]
      rw [this]
      exact hp)
  obtain ⟨g9, r9, c9, q9⟩ := Runs.locals_ex P.ranks_nodup c8
    (fun r => (her2kTiles band (P.on r) j).map (her2kTask band (P.on r) j) ++ [fun s => some (resetAll s)])
    (fun r s' => PS P n nb band dt r (updA n band j V (trailX n band j st.a V F) st.a) T' s')
    (fun r hr => by
      obtain ⟨a, b, c, d⟩ := s7 r hr
      obtain ⟨p, pt, ee, hp, hpt⟩ := q8 r hr
      obtain ⟨a', a1, a2⟩ := h.her2k_local hr (A := st.a) (V := V) (X := trailX n band j st.a V F) (s := g8.st r) (by rw [ee]; exact a.win) (by rw [ee]; exact b)
        (by rw [ee]; exact hp) (by rw [ee]; exact c) hge (by rw [ee]; exact hpt)
      refine ⟨resetAll { g8.st r with a := a' }, ?_, a2, ?_⟩
      · rw [runLocs_append, a1, Option.bind_some, runLocs_one]
      · show TausAt P.col n nb band r.col T' (dt r) (g8.st r).tau
        rw [ee]
        exact a.tau)
  have R3 : Runs (fun r => if r ∈ P.ranks then (if (P.on r).col.rank = rootCol band (P.on r) j then ((rows band (P.on r) j).map (setW n band (E r) (P.on r) j)).map Instr.loc else []) else []) g2 g3 :=
    r3.congr fun r => by
      rw [rootCol_on h.a2]
      by_cases hr : r ∈ P.ranks
      · by_cases hc : r.col = rc P nb band j
        · rw [if_pos hr, if_pos (show (P.on r).col.rank = _ from hc), if_pos (mem_onCol.2 ⟨hr, hc⟩)]
        · rw [if_pos hr, if_neg (show ¬ (P.on r).col.rank = _ from hc), if_neg fun hh => hc (mem_onCol.1 hh).2]
      · rw [if_neg hr, if_neg fun hh => hr (hsub r hh)]
  have R1 : Runs (fun r => if r ∈ P.ranks then (if (P.on r).col.rank = rootCol band (P.on r) j then panelPart n nb band (E r) (P.on r) (dt r) j else []) else []) g g1 :=
    r1.congr fun r => by
      rw [rootCol_on h.a2]
      by_cases hr : r ∈ P.ranks
      · by_cases hc : r.col = rc P nb band j
        · rw [if_pos hr, if_pos (show (P.on r).col.rank = _ from hc), if_pos (mem_onCol.2 ⟨hr, hc⟩)]
        · rw [if_pos hr, if_neg (show ¬ (P.on r).col.rank = _ from hc), if_neg fun hh => hc (mem_onCol.1 hh).2]
      · rw [if_neg hr, if_neg fun hh => hr (hsub r hh)]
  have R6 : Runs (fun r => if r ∈ P.ranks then (if (P.on r).col.rank = rootCol band (P.on r) j then xPart n band (P.on r) j else []) else []) g5 g6 :=
    r6.congr fun r => by
      rw [rootCol_on h.a2]
      by_cases hr : r ∈ P.ranks
      · by_cases hc : r.col = rc P nb band j
        · rw [if_pos hr, if_pos (show (P.on r).col.rank = _ from hc), if_pos (mem_onCol.2 ⟨hr, hc⟩)]
        · rw [if_pos hr, if_neg (show ¬ (P.on r).col.rank = _ from hc), if_neg fun hh => hc (mem_onCol.1 hh).2]
      · rw [if_neg hr, if_neg fun hh => hr (hsub r hh)]
  refine ⟨g9, F, (Runs.if_append R1 (Runs.if_append r2 (Runs.if_append R3 (Runs.if_append r4 (Runs.if_append r5 (Runs.if_append R6
    (Runs.if_append r7 (Runs.if_append r8 r9)))))))).congr fun r => ?_, c9, q9, hF, hmat⟩
  by_cases hr : r ∈ P.ranks
  · rw [if_pos hr, if_pos hr]
    unfold step
    rw [if_pos (show DistRed.r0 band j < n from h.r0n)]
    simp only [List.map_append, List.map_map, List.append_assoc, List.map_cons, List.map_nil]
    rfl
  · rw [if_neg hr, if_neg hr]

end
end DistRed
end DLAF
