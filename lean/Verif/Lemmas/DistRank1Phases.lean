import Verif.Lemmas.DistRank1Run
import Verif.Lemmas.DistCholesky
/- C68: the weights, the eigenvectors and the whole run. -/
namespace DLAF
namespace DistR1
open Finset
variable {g : DR1Cfg} {P : Params2} {n : Nat} {klc : Int → Nat} {st0 : Coord2 → DR1St}
variable (hf : Rank1Fits P n g.k g.i4 g.i6 g.i2 klc)

/-- The contribution of process `r` to the weight of row `x`. -/
noncomputable def contrib (g : DR1Cfg) (P : Params2) (klc : Int → Nat) (q : Nat → Nat → ℝ) (r : Coord2) (x : Nat) : ℝ :=
  initVal g (P.on r) q 0 x * ∏ j ∈ range (klc r.col), fac g (P.on r) q x j

include hf

theorem contrib_eq (h4 : Laed4Spec g.laed4) (hk : 3 ≤ g.k) (hin : SecularInput g.k g.d g.z g.rho) {r : Coord2} (hr : r ∈ P.ranks) {x : Nat}
    (hx : x < localColumns P.row r.row) {a : Nat} (ha : a < g.k) (he : placeRow P g.i4 r.row x = a) (q : Nat → Nat → ℝ) :
    contrib g P klc (qOf g P klc r q (deltaOf g)) r x = (if P.col.owner (g.i2.getD a 0 : Nat) = r.col then g.d a - lamOf g a else 1) *
      ∏ l ∈ range (klc r.col), (if a = g.i6.getD (localColumn P.col r.col l) 0 then 1 else
        (g.d a - lamOf g (g.i6.getD (localColumn P.col r.col l) 0)) / (g.d a - g.d (g.i6.getD (localColumn P.col r.col l) 0))) := by
  obtain ⟨h0, h1⟩ := col_ok hr
  obtain ⟨hle, hsp⟩ := hf.split r.col h0 h1
  have hi : is g (P.on r) x = a := he
  have hj : ∀ x, js g (P.on r) x = g.i6.getD (localColumn P.col r.col x) 0 := fun _ => rfl
  have hdel : ∀ b < g.k, deltaOf g a b = g.d a - lamOf g b := fun b hb => h4.delta _ _ _ _ _ hk hb hin a ha
  have hq : ∀ y < klc r.col, qOf g P klc r q (deltaOf g) x y = g.d a - lamOf g (g.i6.getD (localColumn P.col r.col y) 0) := by
    intro y hy
    unfold qOf
    rw [if_pos ⟨hy, hx, by rw [he]; exact ha⟩, he]
    exact hdel _ ((hsp y (by omega)).1 hy)
  unfold contrib
  congr 1
  · unfold initVal
    rw [hi, if_pos rfl, if_neg (show ¬ g.k ≤ a by omega)]
    obtain ⟨e, hen, ee, ee'⟩ := surj_of_perm hf.colPlaces (show a < n by have := hf.k_le; omega)
    have e2 := getD_of_get (hf.inverse e a ee)
    rw [e2]
    have hcs := hf.colSize
    obtain ⟨_, ho⟩ := C01_element_owner hf.col (e := (e : Int)) (by omega) (by omega)
    have ho' := (ho r.col h0 h1).1
    have hrk : (P.on r).col.rank = r.col := rfl
    have hro : (P.on r).col.rank_global_element e = P.col.owner e := ho'
    rw [hrk, hro]
    by_cases hown : r.col = P.col.owner e
    · rw [if_pos hown, if_pos hown.symm]
      obtain ⟨l, hl, el⟩ := (local_iff hf.col hf.colSize h0 h1 (e := e)).2 ⟨hen, hown.symm⟩
      have z := (DistPart.col_spec hf.col hf.colSize h0 h1 hl).2.2.2
      rw [el] at z
      have z' : (P.on r).col.local_element_from_global_element (e : Nat) = l := z
      rw [z', Int.toNat_natCast, hq l ((hsp l hl).2 (by rw [el, ee']; exact ha)), el, ee']
    · rw [if_neg hown, if_neg (Ne.symm hown)]
  · refine Finset.prod_congr rfl fun j hjm => ?_
    have hjk := Finset.mem_range.1 hjm
    unfold fac
    rw [hi, if_neg (show ¬ g.k ≤ a by omega), hj, hq j hjk]

theorem weight_total (h4 : Laed4Spec g.laed4) (hk : 3 ≤ g.k) (hin : SecularInput g.k g.d g.z g.rho) {r : Coord2} (hr : r ∈ P.ranks) {x : Nat}
    (hx : x < localColumns P.row r.row) (ha : placeRow P g.i4 r.row x < g.k) :
    ((irange 0 P.col.grid).map fun k => contrib g P klc (qOf g P klc ⟨r.row, k⟩ (st0 ⟨r.row, k⟩).q (deltaOf g)) ⟨r.row, k⟩ x).prod =
      -(g.rho * g.z (placeRow P g.i4 r.row x) ^ 2) := by
  have hcs := hf.colSize
  obtain ⟨e, hen, ee, ee'⟩ := surj_of_perm hf.colPlaces (show placeRow P g.i4 r.row x < n by have := hf.k_le; omega)
  have e2 := getD_of_get (hf.inverse e _ ee)
  rw [← weight_dist hf.col hf.colSize hf.k_le hf.colPlaces hf.split hin (roots h4 (by omega) hin) ha
    (C01_element_owner hf.col (e := (e : Int)) (by omega) (by omega)).1]
  congr 1
  refine List.map_congr_left fun k hkm => ?_
  obtain ⟨k0, k1⟩ := mem_irange.1 hkm
  have hr' : (⟨r.row, k⟩ : Coord2) ∈ P.ranks := by
    refine Params2.mem_ranks.2 fun co => ?_
    cases co
    · exact Params2.mem_ranks.1 hr .Row
    · exact ⟨k0, k1⟩
  rw [contrib_eq hf h4 hk hin hr' hx ha rfl, e2]

/-- The weights. -/
theorem phase2 (h4 : Laed4Spec g.laed4) (hk : 3 ≤ g.k) (hin : SecularInput g.k g.d g.z g.rho) {nt : Coord2 → Nat} (hnt : ∀ r ∈ P.ranks, 0 < nt r)
    {c : Glob DR1St Msg} (hc : Clean P.ranks c) (hs : ∀ r ∈ P.ranks, c.st r = stA g P n klc st0 (fun _ _ => True) r) :
    ∃ c', Runs (fun r => if r ∈ P.ranks then
        [.loc fun st => some (redW (P.on r) (nt r) (byWorkers (nt r) (klc r.col) (fun t J => J.map (wCol g (P.on r) t)) (Bulk.runAll (fun t => [initW g (P.on r) t]) (nt r) st)))] ++
        (if 1 < (P.on r).col.grid then allReduce (.row (P.on r).row.rank) (P.on r).col.grid List.prod (rows (P.on r)) (fun st => st.ws 0)
          (fun st w => { st with ws := fun u => if u = 0 then w else st.ws u }) else []) else []) c c' ∧ Clean P.ranks c' ∧
      ∀ r ∈ P.ranks, ∃ ws, c'.st r = { stA g P n klc st0 (fun _ _ => True) r with ws := ws } ∧
        ∀ x < localColumns P.row r.row, placeRow P g.i4 r.row x < g.k → ws 0 x = -(g.rho * g.z (placeRow P g.i4 r.row x) ^ 2) := by
  obtain ⟨c1, r1, k1, s1⟩ := Runs.locals_ex (V := Msg) P.ranks_nodup hc
    (fun r => [fun st => some (redW (P.on r) (nt r) (byWorkers (nt r) (klc r.col) (fun t J => J.map (wCol g (P.on r) t)) (Bulk.runAll (fun t => [initW g (P.on r) t]) (nt r) st)))])
    (fun r s => ∃ ws, s = { stA g P n klc st0 (fun _ _ => True) r with ws := ws } ∧
      ∀ x < localColumns P.row r.row, ws 0 x = contrib g P klc (qOf g P klc r (st0 r).q (deltaOf g)) r x)
    (fun r hr => by
      obtain ⟨ws, e1, e2⟩ := weights_local (g := g) (s := P.on r) (klc := klc r.col) (hnt r hr) (c.st r)
      refine ⟨_, rfl, ws, ?_, fun x hx => ?_⟩
      · rw [e1, hs r hr]
      · rw [e2 x hx, hs r hr]
        rfl)
  by_cases hg : 1 < P.col.grid
  · obtain ⟨c2, r2, k2, s2⟩ := allReduce_step (P := P) .Col List.prod (fun r => localColumns P.row r.row) (fun st => st.ws 0)
      (fun st w => { st with ws := fun u => if u = 0 then w else st.ws u }) (fun r _ s _ h => by
        have : s.row = r.row := h
        rw [this]) k1
    refine ⟨c2, (DistRed.Runs.if_append r1 r2).congr fun r => ?_, k2, fun r hr => ?_⟩
    · by_cases hr : r ∈ P.ranks
      · simp only [hr, if_true]
        rw [if_pos (show 1 < (P.on r).col.grid from hg)]
        rfl
      · simp [hr]
    · obtain ⟨ws, e1, e2⟩ := s1 r hr
      rw [s2 r hr, e1]
      refine ⟨_, rfl, fun x hx ha => ?_⟩
      dsimp only
      rw [if_pos rfl, if_pos hx, ← weight_total hf h4 hk hin hr hx ha (st0 := st0)]
      congr 1
      refine List.map_congr_left fun k hkm => ?_
      obtain ⟨k0, k1⟩ := mem_irange.1 hkm
      have hr' : (⟨r.row, k⟩ : Coord2) ∈ P.ranks := by
        refine Params2.mem_ranks.2 fun co => ?_
        cases co
        · exact Params2.mem_ranks.1 hr .Row
        · exact ⟨k0, k1⟩
      obtain ⟨ws', e1', e2'⟩ := s1 _ hr'
      have : (panelChan .Col r).rankOf k = ⟨r.row, k⟩ := rfl
      rw [this, e1']
      exact e2' x hx
  · refine ⟨c1, r1.congr fun r => ?_, k1, fun r hr => ?_⟩
    · by_cases hr : r ∈ P.ranks
      · simp only [hr, if_true]
        rw [if_neg (show ¬ 1 < (P.on r).col.grid from hg)]
        rfl
      · simp [hr]
    · obtain ⟨ws, e1, e2⟩ := s1 r hr
      refine ⟨ws, e1, fun x hx ha => ?_⟩
      rw [e2 x hx, ← weight_total hf h4 hk hin hr hx ha (st0 := st0)]
      obtain ⟨h0, h1⟩ := col_ok hr
      have g1 : P.col.grid = 0 + 1 := by omega
      have hc0 : r.col = 0 := by omega
      have hre : r = ⟨r.row, 0⟩ := by rw [← hc0]
      rw [g1, irange_succ (by omega), irange_self]
      simp only [List.nil_append, List.map_cons, List.map_nil, List.prod_cons, List.prod_nil, mul_one]
      rw [← hre]

/-- Numerators of the eigenvectors. -/
noncomputable def numOf (g : DR1Cfg) (i b : Nat) : ℝ := Real.sqrt g.rho * g.z i / (g.d i - lamOf g b)

omit hf in
theorem if_sq {c : Prop} [Decidable c] (v : ℝ) : (if c then v else 0) ^ 2 = if c then v ^ 2 else 0 := by
  split <;> simp

/-- The eigenvectors, not yet normalized, and the local part of the norms. -/
theorem phase3 (h4 : Laed4Spec g.laed4) (hk : 3 ≤ g.k) (hin : SecularInput g.k g.d g.z g.rho) {nt : Coord2 → Nat} (hnt : ∀ r ∈ P.ranks, 0 < nt r)
    (hz : ∀ r ∈ P.ranks, ∀ x < localColumns P.row r.row, ∀ y < klc r.col, g.k ≤ placeRow P g.i4 r.row x → (st0 r).q x y = 0)
    {c : Glob DR1St Msg} (hc : Clean P.ranks c) (hs : ∀ r ∈ P.ranks, ∃ ws, c.st r = { stA g P n klc st0 (fun _ _ => True) r with ws := ws } ∧
        ∀ x < localColumns P.row r.row, placeRow P g.i4 r.row x < g.k → ws 0 x = -(g.rho * g.z (placeRow P g.i4 r.row x) ^ 2)) :
    ∃ c', Runs (fun r => if r ∈ P.ranks then
        [.loc fun st => (finW g (P.on r) st).map (byWorkers (nt r) (klc r.col) fun _ J => J.map (colQ g (P.on r)))] ++
        (if 1 < (P.on r).row.grid then allReduce (.col (P.on r).col.rank) (P.on r).row.grid List.sum (klc r.col) (fun st => st.sums)
          (fun st w => { st with sums := w }) else []) else []) c c' ∧ Clean P.ranks c' ∧
      ∀ r ∈ P.ranks, (c'.st r).evals = evOf g n (st0 r).evals (fun _ => True) ∧ (c'.st r).q = qOf g P klc r (st0 r).q (numOf g) ∧
        ∀ y < klc r.col, (c'.st r).sums y = ∑ a ∈ range g.k, numOf g a (placeCol P g.i6 r.col y) ^ 2 := by
  obtain ⟨c1, r1, k1, s1⟩ := Runs.locals_ex (V := Msg) P.ranks_nodup hc
    (fun r => [fun st => (finW g (P.on r) st).map (byWorkers (nt r) (klc r.col) fun _ J => J.map (colQ g (P.on r)))])
    (fun r s => s.evals = evOf g n (st0 r).evals (fun _ => True) ∧ s.q = qOf g P klc r (st0 r).q (numOf g) ∧
        ∀ y < klc r.col, s.sums y = ∑ x ∈ range (localColumns P.row r.row),
          if placeRow P g.i4 r.row x < g.k then numOf g (placeRow P g.i4 r.row x) (placeCol P g.i6 r.col y) ^ 2 else 0)
    (fun r hr => by
      obtain ⟨h0, h1⟩ := col_ok hr
      obtain ⟨hle, hsp⟩ := hf.split r.col h0 h1
      obtain ⟨ws, e1, e2⟩ := hs r hr
      have hi : ∀ x, is g (P.on r) x = placeRow P g.i4 r.row x := fun _ => rfl
      have hrw : rows (P.on r) = localColumns P.row r.row := rfl
      have hdel : ∀ a < g.k, ∀ b < g.k, deltaOf g a b = g.d a - lamOf g b := fun a ha b hb => h4.delta _ _ _ _ _ hk hb hin a ha
      set S : DR1St := { stA g P n klc st0 (fun _ _ => True) r with
        ws := ws, weights := fun x => if x < localColumns P.row r.row then copysign (Real.sqrt (-ws 0 x)) (g.z (placeRow P g.i4 r.row x)) else (st0 r).weights x } with hS
      have hfin : finW g (P.on r) (c.st r) = some S := by
        unfold finW
        rw [if_neg, e1]
        · rfl
        · rintro ⟨_, x, hx, ha, h⟩
          rw [e1] at h
          have := e2 x hx ha
          refine h ?_
          dsimp only
          rw [this]
          have hz := hin.2.2 _ ha
          have := hin.1
          have : 0 < g.z (placeRow P g.i4 r.row x) ^ 2 := by positivity
          have := mul_pos hin.1 this
          linarith
      refine ⟨byWorkers (nt r) (klc r.col) (fun _ J => J.map (colQ g (P.on r))) S, ?_, ?_⟩
      · show Option.bind (Option.map _ (finW g (P.on r) (c.st r))) _ = _
        rw [hfin]
        rfl
      · rw [byWorkers_list (hnt r hr), run_colQ _ List.nodup_range]
        have hval : ∀ x < localColumns P.row r.row, ∀ y < klc r.col, (if placeRow P g.i4 r.row x < g.k then S.weights x / S.q x y else S.q x y) =
            if placeRow P g.i4 r.row x < g.k then numOf g (placeRow P g.i4 r.row x) (placeCol P g.i6 r.col y) else 0 := by
          intro x hx y hy
          by_cases ha : placeRow P g.i4 r.row x < g.k
          · rw [if_pos ha, if_pos ha]
            have hb : placeCol P g.i6 r.col y < g.k := (hsp y (by omega)).1 hy
            have w1 : S.weights x = Real.sqrt g.rho * g.z (placeRow P g.i4 r.row x) := by
              show (if x < localColumns P.row r.row then _ else _) = _
              rw [if_pos hx, e2 x hx ha]
              exact copysign_weight hin.1 (hin.2.2 _ ha)
            have w2 : S.q x y = g.d (placeRow P g.i4 r.row x) - lamOf g (placeCol P g.i6 r.col y) := by
              show qOf g P klc r (st0 r).q (deltaOf g) x y = _
              unfold qOf
              rw [if_pos ⟨hy, hx, ha⟩, hdel _ ha _ hb]
            rw [w1, w2]
            rfl
          · rw [if_neg ha, if_neg ha]
            show qOf g P klc r (st0 r).q (deltaOf g) x y = _
            unfold qOf
            rw [if_neg (fun h => ha h.2.2)]
            exact hz r hr x hx y hy (by omega)
        refine ⟨rfl, ?_, fun y hy => ?_⟩
        · funext x y
          dsimp only
          simp only [hi, hrw, List.mem_range]
          unfold qOf
          by_cases hxy : y < klc r.col ∧ x < localColumns P.row r.row
          · rw [if_pos hxy, hval x hxy.2 y hxy.1]
            by_cases ha : placeRow P g.i4 r.row x < g.k
            · rw [if_pos ha, if_pos ⟨hxy.1, hxy.2, ha⟩]
            · rw [if_neg ha, if_neg (fun h => ha h.2.2), hz r hr x hxy.2 y hxy.1 (by omega)]
          · rw [if_neg hxy, if_neg (fun h => hxy ⟨h.1, h.2.1⟩)]
            show qOf g P klc r (st0 r).q (deltaOf g) x y = _
            unfold qOf
            rw [if_neg (fun h => hxy ⟨h.1, h.2.1⟩)]
        · dsimp only
          simp only [hi, hrw, List.mem_range]
          rw [if_pos hy]
          have s0 : S.sums y = 0 := by
            show sums0 P r (st0 r).sums y = 0
            unfold sums0
            rw [if_pos (by omega)]
          rw [s0, zero_add]
          refine Finset.sum_congr rfl fun x hx => ?_
          rw [hval x (Finset.mem_range.1 hx) y hy, if_sq])
  have total : ∀ b, ∑ a ∈ range n, (if a < g.k then numOf g a b ^ 2 else 0) = ∑ a ∈ range g.k, numOf g a b ^ 2 := by
    intro b
    obtain ⟨m, hm⟩ := Nat.exists_eq_add_of_le hf.k_le
    rw [hm, Finset.sum_range_add, Finset.sum_eq_zero (s := range m), add_zero]
    · exact Finset.sum_congr rfl fun a ha => if_pos (Finset.mem_range.1 ha)
    · intro a _
      rw [if_neg (by omega)]
  by_cases hg : 1 < P.row.grid
  · obtain ⟨c2, r2, k2, s2⟩ := allReduce_step (P := P) .Row List.sum (fun r => klc r.col) (fun st => st.sums)
      (fun st w => { st with sums := w }) (fun r _ s _ h => by
        have : s.col = r.col := h
        rw [this]) k1
    refine ⟨c2, (DistRed.Runs.if_append r1 r2).congr fun r => ?_, k2, fun r hr => ?_⟩
    · by_cases hr : r ∈ P.ranks
      · simp only [hr, if_true]
        rw [if_pos (show 1 < (P.on r).row.grid from hg)]
        rfl
      · simp [hr]
    · obtain ⟨e1, e2, _⟩ := s1 r hr
      rw [s2 r hr]
      refine ⟨e1, e2, fun y hy => ?_⟩
      dsimp only
      rw [if_pos hy, ← total, ← sum_all hf.row hf.rowSize hf.rowPlaces]
      congr 1
      refine List.map_congr_left fun k hkm => ?_
      obtain ⟨k0, k1⟩ := mem_irange.1 hkm
      have hr' : (⟨k, r.col⟩ : Coord2) ∈ P.ranks := by
        refine Params2.mem_ranks.2 fun co => ?_
        cases co
        · exact ⟨k0, k1⟩
        · exact Params2.mem_ranks.1 hr .Col
      have : (panelChan .Row r).rankOf k = ⟨k, r.col⟩ := rfl
      rw [this]
      exact (s1 _ hr').2.2 y hy
  · refine ⟨c1, r1.congr fun r => ?_, k1, fun r hr => ?_⟩
    · by_cases hr : r ∈ P.ranks
      · simp only [hr, if_true]
        rw [if_neg (show ¬ 1 < (P.on r).row.grid from hg)]
        rfl
      · simp [hr]
    · obtain ⟨e1, e2, e3⟩ := s1 r hr
      refine ⟨e1, e2, fun y hy => ?_⟩
      rw [e3 y hy, ← total, ← sum_all hf.row hf.rowSize hf.rowPlaces]
      obtain ⟨h0, h1⟩ := row_ok hf hr
      have g1 : P.row.grid = 0 + 1 := by omega
      have hc0 : r.row = 0 := by omega
      rw [g1, irange_succ (by omega), irange_self]
      simp only [List.nil_append, List.map_cons, List.map_nil, List.sum_cons, List.sum_nil, add_zero]
      rw [hc0]
      rfl

/-- The normalization. -/
theorem phase4 (hk : 3 ≤ g.k) (hin : SecularInput g.k g.d g.z g.rho) {nt : Coord2 → Nat} (hnt : ∀ r ∈ P.ranks, 0 < nt r)
    (hz : ∀ r ∈ P.ranks, ∀ x < localColumns P.row r.row, ∀ y < klc r.col, g.k ≤ placeRow P g.i4 r.row x → (st0 r).q x y = 0)
    {c : Glob DR1St Msg} (hc : Clean P.ranks c) (hs : ∀ r ∈ P.ranks, (c.st r).evals = evOf g n (st0 r).evals (fun _ => True) ∧
        (c.st r).q = qOf g P klc r (st0 r).q (numOf g) ∧ ∀ y < klc r.col, (c.st r).sums y = ∑ a ∈ range g.k, numOf g a (placeCol P g.i6 r.col y) ^ 2) :
    ∃ c', Runs (fun r => if r ∈ P.ranks then [.loc fun st => some (byWorkers (nt r) (klc r.col) (fun _ J => J.map (normC (P.on r))) st)] else []) c c' ∧ Clean P.ranks c' ∧
      ∀ r ∈ P.ranks, (c'.st r).evals = evOf g n (st0 r).evals (fun _ => True) ∧ (c'.st r).q = qOf g P klc r (st0 r).q (vecOf g) := by
  refine Exists.imp (fun c' h => ⟨h.1.congr fun r => rfl, h.2⟩) (Runs.locals_ex (V := Msg) P.ranks_nodup hc
    (fun r => [fun st => some (byWorkers (nt r) (klc r.col) (fun _ J => J.map (normC (P.on r))) st)])
    (fun r s => s.evals = evOf g n (st0 r).evals (fun _ => True) ∧ s.q = qOf g P klc r (st0 r).q (vecOf g)) fun r hr => ?_)
  obtain ⟨h0, h1⟩ := col_ok hr
  obtain ⟨hle, hsp⟩ := hf.split r.col h0 h1
  obtain ⟨e1, e2, e3⟩ := hs r hr
  refine ⟨_, rfl, ?_⟩
  rw [byWorkers_list (hnt r hr), run_normC _ List.nodup_range]
  have hrw : rows (P.on r) = localColumns P.row r.row := rfl
  refine ⟨e1, ?_⟩
  funext x y
  dsimp only
  simp only [hrw, List.mem_range]
  rw [e2]
  unfold qOf
  by_cases hxy : y < klc r.col ∧ x < localColumns P.row r.row
  · rw [if_pos hxy, e3 y hxy.1]
    by_cases ha : placeRow P g.i4 r.row x < g.k
    · rw [if_pos ⟨hxy.1, hxy.2, ha⟩, if_pos ⟨hxy.1, hxy.2, ha⟩]
      unfold vecOf
      rw [if_neg (by omega)]
      have hrho : 0 < Real.sqrt g.rho := Real.sqrt_pos.2 hin.1
      have hsum : ∑ a ∈ range g.k, numOf g a (placeCol P g.i6 r.col y) ^ 2 =
          ∑ a ∈ range g.k, (Real.sqrt g.rho * (g.z a / (g.d a - lamOf g (placeCol P g.i6 r.col y)))) ^ 2 := by
        refine Finset.sum_congr rfl fun a _ => ?_
        unfold numOf
        rw [mul_div_assoc]
      rw [hsum, sum_scale hrho.ne' hrho _ rfl]
      unfold numOf
      rw [one_div, mul_comm, ← div_eq_mul_inv, mul_div_assoc, mul_div_mul_left _ _ hrho.ne']
    · rw [if_neg (fun h => ha h.2.2), if_neg (fun h => ha h.2.2), hz r hr x hxy.2 y hxy.1 (by omega), mul_zero]
  · rw [if_neg hxy, if_neg (fun h => hxy ⟨h.1, h.2.1⟩), if_neg (fun h => hxy ⟨h.1, h.2.1⟩)]

/-- The whole run, as a part of a larger program. -/
theorem run_glob (h4 : Laed4Spec g.laed4) (hin : 2 ≤ g.k → SecularInput g.k g.d g.z g.rho) {avail : Coord2 → Nat} (hav : ∀ r ∈ P.ranks, 0 < avail r)
    {g0 : Glob DR1St Msg} (k0 : Clean P.ranks g0)
    (hz : ∀ r ∈ P.ranks, ∀ x < localColumns P.row r.row, ∀ y < klc r.col, g.k ≤ placeRow P g.i4 r.row x → (g0.st r).q x y = 0) :
    ∃ g', Runs (fun r => if r ∈ P.ranks then program g (P.on r) n (klc r.col) (avail r) else []) g0 g' ∧ Clean P.ranks g' ∧
      ∀ r ∈ P.ranks, (g'.st r).evals = evOf g n (g0.st r).evals (fun _ => True) ∧ (g'.st r).q = qOf g P klc r (g0.st r).q (vecOf g) := by
  have hnt : ∀ r ∈ P.ranks, 0 < workers (P.on r) (klc r.col) (avail r) := fun r hr => clamp_pos (hav r hr)
  set nt : Coord2 → Nat := fun r => workers (P.on r) (klc r.col) (avail r) with hntd
  obtain ⟨c1, r1, k1, s1⟩ := Runs.locals_ex (V := Msg) P.ranks_nodup k0
    (fun r => [fun st => some (byWorkers (nt r) (klc r.col) (fun _ J => J.map (laed g (P.on r))) (start g (P.on r) n (klc r.col) st))])
    (fun r s => s = stA g P n klc g0.st (fun r e => P.col.owner e = r.col) r)
    (fun r hr => ⟨_, rfl, first hf hr (hnt r hr) (g0.st r)⟩)
  obtain ⟨c2, r2, k2, s2⟩ := bcast_all hf k1 s1
  by_cases hk : g.k ≤ 2
  · refine ⟨c2, (DistRed.Runs.if_append r1 r2).congr fun r => ?_, k2, fun r hr => ?_⟩
    · unfold program
      dsimp only
      rw [if_pos hk, List.append_nil]
      rfl
    · rw [s2 r hr]
      refine ⟨rfl, ?_⟩
      show qOf g P klc r (g0.st r).q (deltaOf g) = _
      have : deltaOf g = vecOf g := by
        funext i a
        unfold vecOf
        rw [if_pos hk]
        rfl
      rw [this]
  · have hin' := hin (by omega)
    obtain ⟨c3, r3, k3, s3⟩ := phase2 hf h4 (by omega) hin' hnt k2 s2
    obtain ⟨c4, r4, k4, s4⟩ := phase3 hf h4 (by omega) hin' hnt hz k3 s3
    obtain ⟨c5, r5, k5, s5⟩ := phase4 hf (by omega) hin' hnt hz k4 s4
    refine ⟨c5, (DistRed.Runs.if_append (DistRed.Runs.if_append (DistRed.Runs.if_append (DistRed.Runs.if_append r1 r2) r3) r4) r5).congr fun r => ?_, k5, s5⟩
    unfold program
    simp only [if_neg hk, List.append_assoc]
    rfl

/-- The whole run. -/
theorem run_all (h4 : Laed4Spec g.laed4) (hin : 2 ≤ g.k → SecularInput g.k g.d g.z g.rho) {avail : Coord2 → Nat} (hav : ∀ r ∈ P.ranks, 0 < avail r)
    (hz : ∀ r ∈ P.ranks, ∀ x < localColumns P.row r.row, ∀ y < klc r.col, g.k ≤ placeRow P g.i4 r.row x → (st0 r).q x y = 0) :
    AlwaysEnds (Conf.init (fun r => if r ∈ P.ranks then program g (P.on r) n (klc r.col) (avail r) else []) st0)
      fun st => ∀ r ∈ P.ranks, (st r).evals = evOf g n (st0 r).evals (fun _ => True) ∧ (st r).q = qOf g P klc r (st0 r).q (vecOf g) := by
  obtain ⟨g', h1, _, h2⟩ := run_glob hf h4 hin hav (g0 := ⟨st0, fun _ _ => 0, fun _ _ _ => none⟩) (Clean.init P.ranks st0) hz
  exact h1.alwaysEnds h2

end DistR1
end DLAF
