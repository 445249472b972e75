import Verif.Model.RedBand
import Verif.Lemmas.Threads
import Verif.Lemmas.TFactor
import Verif.Lemmas.Views
/- The panel of the reduction to band: workers and closed forms. -/
namespace DLAF
open scoped Classical
variable {K : Type*} [RCLike K]

/-- A panel whose tiles follow each other, with all the heads of the reflectors in the first tile. -/
structure PanelCfg.OK (g : PanelCfg K) (e : Nat) : Prop where
  chain : Chain g.r0 e g.ps
  ne : g.ps ≠ []
  head : g.nrefls ≤ (g.ps.headD (0, 0)).2
  width : g.nrefls ≤ g.cols

/-! ### lists of tiles -/

theorem Chain.getElem {a e : Nat} {ps : List (Nat × Nat)} (h : Chain a e ps) : ∀ i (hi : i < ps.length),
    a ≤ ps[i].1 ∧ ps[i].1 + ps[i].2 ≤ e ∧ ∀ j (hj : j < ps.length), i < j → ps[i].1 + ps[i].2 ≤ ps[j].1 := by
  induction ps generalizing a with
  | nil => intro i hi; simp at hi
  | cons p ps ih =>
    intro i hi
    have h1 := h.1
    have h2 := h.2.le
    cases i with
    | zero =>
      refine ⟨by simp [h1], by simp; omega, ?_⟩
      intro j hj hij
      obtain ⟨j, rfl⟩ : ∃ j', j = j' + 1 := ⟨j - 1, by omega⟩
      have := (ih h.2 j (by simpa using hj)).1
      simp only [List.getElem_cons_zero, List.getElem_cons_succ]
      omega
    | succ i =>
      obtain ⟨h3, h4, h5⟩ := ih h.2 i (by simpa using hi)
      simp only [List.getElem_cons_succ]
      refine ⟨by omega, h4, ?_⟩
      intro j hj hij
      obtain ⟨j, rfl⟩ : ∃ j', j = j' + 1 := ⟨j - 1, by omega⟩
      simp only [List.getElem_cons_succ]
      exact h5 j (by simpa using hj) (by omega)

theorem getD_lt {ps : List (Nat × Nat)} {i : Nat} (hi : i < ps.length) : ps.getD i (0, 0) = ps[i] := by
  rw [List.getD_eq_getElem?_getD, List.getElem?_eq_getElem hi]; rfl

theorem headD_get {X : Type*} {d : X} : ∀ (l : List X) (h : 0 < l.length), l.headD d = l[0]
  | [], h => by simp at h
  | _ :: _, _ => rfl

/-- Rows of the tails of the tiles. -/
theorem tailPiece_rows {g : PanelCfg K} {e j : Nat} (h : g.OK e) (hj : j < g.nrefls) {i : Nat} (hi : i < g.ps.length) :
    g.r0 + j ≤ (tailPiece g j i).1 ∧ (tailPiece g j i).1 + (tailPiece g j i).2 ≤ e ∧
    (i ≠ 0 → g.r0 + j < (tailPiece g j i).1) ∧
    ∀ i', i' < g.ps.length → i < i' → (tailPiece g j i).1 + (tailPiece g j i).2 ≤ (tailPiece g j i').1 := by
  obtain ⟨h1, h2, h3⟩ := h.chain.getElem i hi
  have hh := h.head
  have hz : 0 < g.ps.length := by omega
  have e0 : g.ps.headD (0, 0) = g.ps[0] := headD_get _ hz
  have er : g.r0 = g.ps[0].1 := by unfold PanelCfg.r0; rw [e0]
  rw [e0] at hh
  unfold tailPiece
  simp only [getD_lt hi]
  by_cases hi0 : i = 0
  · subst hi0
    simp only [if_true]
    refine ⟨by omega, by omega, fun h => absurd rfl h, ?_⟩
    intro i' hi' hlt
    rw [getD_lt hi', if_neg (by omega)]
    have := h3 i' hi' hlt
    omega
  · rw [if_neg hi0]
    have h4 := (h.chain.getElem 0 hz).2.2 i hi (by omega)
    refine ⟨by omega, h2, fun _ => by omega, ?_⟩
    intro i' hi' hlt
    rw [getD_lt hi', if_neg (by omega)]
    exact h3 i' hi' hlt

theorem tails_chain {g : PanelCfg K} {e j : Nat} (h : g.OK e) (hj : j < g.nrefls) :
    Chain (g.r0 + j) e ((List.range g.ps.length).map (tailPiece g j)) := by
  have hc := h.chain
  have hh := h.head
  unfold tailPiece
  obtain ⟨p, ps, hps⟩ := List.exists_cons_of_ne_nil h.ne
  have er : g.r0 = p.1 := by unfold PanelCfg.r0; rw [hps]; rfl
  rw [er] at hc ⊢
  rw [hps] at hc hh ⊢
  rw [List.length_cons, List.range_succ_eq_map, List.map_cons, List.map_map]
  refine ⟨by simp, ?_⟩
  have e1 : List.map ((fun i => if i = 0 then (((p :: ps).getD i (0, 0)).1 + j, ((p :: ps).getD i (0, 0)).2 - j)
      else (p :: ps).getD i (0, 0)) ∘ Nat.succ) (List.range ps.length) = ps := by
    refine List.ext_getElem (by simp) fun i h1 h2 => ?_
    simp [h2]
  rw [e1]
  simp only [List.getD_cons_zero, if_true]
  have := hc.2
  simp only [List.headD_cons] at hh
  convert this using 1
  omega

/-! ### the tiles of the workers -/

theorem workerRange_all {nt nw : Nat} (hw : 0 < nw) :
    (List.range nw).flatMap (workerRange nt nw) = List.range nt := by
  have hle : nt ≤ nw * ceilDivN nt nw := by rw [Nat.mul_comm]; exact le_ceilDivN_mul nt hw
  have : ∀ m, (List.range m).flatMap (workerRange nt nw) = List.range (min (m * ceilDivN nt nw) nt) := by
    intro m
    induction m with
    | zero => simp
    | succ m ih =>
      rw [List.range_succ, List.flatMap_append, ih, List.flatMap_singleton, workerRange, upto]
      generalize ceilDivN nt nw = c at *
      rw [List.range_eq_range', List.range_eq_range', Nat.add_mul, Nat.one_mul]
      by_cases h : m * c ≤ nt
      · rw [Nat.min_eq_left h]
        have := List.range'_append_1 (s := 0) (m := m * c) (n := min (m * c + c) nt - m * c)
        rw [Nat.zero_add] at this
        rw [this]
        congr 1
        omega
      · rw [Nat.min_eq_right (by omega), show min (m * c + c) nt - m * c = 0 by omega, Nat.min_eq_right (by omega)]
        simp
  rw [this nw, Nat.min_eq_right hle]

theorem mem_workerRange {nt nw v i : Nat} : i ∈ workerRange nt nw v ↔
    v * ceilDivN nt nw ≤ i ∧ i < v * ceilDivN nt nw + ceilDivN nt nw ∧ i < nt := by
  unfold workerRange
  rw [mem_upto]
  omega

theorem workerRange_disj {nt nw v w i : Nat} (h : v ≠ w) (hv : i ∈ workerRange nt nw v) : i ∉ workerRange nt nw w := by
  rw [mem_workerRange] at hv ⊢
  generalize ceilDivN nt nw = c at *
  intro hw
  rcases Nat.lt_or_gt_of_ne h with h | h
  · have : (v + 1) * c ≤ w * c := Nat.mul_le_mul_right c h
    rw [Nat.add_mul] at this; omega
  · have : (w + 1) * c ≤ v * c := Nat.mul_le_mul_right c h
    rw [Nat.add_mul] at this; omega

theorem workerRange_pos {nt nw v i : Nat} (hv : v ≠ 0) (h : i ∈ workerRange nt nw v) : i ≠ 0 := by
  rw [mem_workerRange] at h
  generalize ceilDivN nt nw = c at *
  rintro rfl
  have : 1 * c ≤ v * c := Nat.mul_le_mul_right c (by omega)
  omega

theorem Bulk.runAll_flat {S : Type*} (l : Nat → List (S → S)) (n : Nat) (s : S) :
    Bulk.runAll l n s = Bulk.runList ((List.range n).flatMap l) s := by
  induction n with
  | zero => rfl
  | succ n ih => rw [Bulk.runAll, ih, List.range_succ, List.flatMap_append, Bulk.runList_append, List.flatMap_singleton]

/-! ### commutation -/

theorem updTile_comm {g : PanelCfg K} {e j : Nat} (h : g.OK e) (hj : j < g.nrefls) {i i' : Nat} (hi : i < g.ps.length)
    (hi' : i' < g.ps.length) (hne : i ≠ i') (s : PanelSt K) : updTile g j i (updTile g j i' s) = updTile g j i' (updTile g j i s) := by
  have h1 := (tailPiece_rows h hj hi).2.2.2 i' hi'
  have h2 := (tailPiece_rows h hj hi').2.2.2 i hi
  unfold updTile
  simp only [PanelSt.mk.injEq, and_true]
  funext x c
  generalize tailPiece g j i = p at *
  generalize tailPiece g j i' = q at *
  have hd : ¬ ((p.1 ≤ x ∧ x < p.1 + p.2) ∧ (q.1 ≤ x ∧ x < q.1 + q.2)) := by
    rcases Nat.lt_or_gt_of_ne hne with h | h
    · have := h1 h; omega
    · have := h2 h; omega
  by_cases hc : g.c0 + j + 1 ≤ c ∧ c < g.c0 + g.cols
  · by_cases hp : p.1 ≤ x ∧ x < p.1 + p.2
    · have hq : ¬ (q.1 ≤ x ∧ x < q.1 + q.2) := fun hq => hd ⟨hp, hq⟩
      simp [hp, hq]
    · by_cases hq : q.1 ≤ x ∧ x < q.1 + q.2
      · simp [hp, hq]
      · simp [hp, hq]
  · simp only [hc, and_false, if_false]

theorem accW_comm {g : PanelCfg K} {j v w i i' : Nat} (hne : v ≠ w) (s : PanelSt K) :
    accW g j v i (accW g j w i' s) = accW g j w i' (accW g j v i s) := by
  unfold accW
  simp only [PanelSt.mk.injEq, and_true, true_and]
  funext u
  have := hne.symm
  by_cases h1 : u = v
  · subst h1; simp [hne]
  · by_cases h2 : u = w
    · subst h2; simp [this]
    · simp [h1, h2]

theorem zeroW_accW_comm {g : PanelCfg K} {j v w i : Nat} (hne : v ≠ w) (s : PanelSt K) :
    zeroW v (accW g j w i s) = accW g j w i (zeroW v s) := by
  unfold accW zeroW
  simp only [PanelSt.mk.injEq, and_true, true_and]
  funext u
  have := hne.symm
  by_cases h1 : u = v
  · subst h1; simp [hne]
  · by_cases h2 : u = w
    · subst h2; simp [this]
    · simp [h1, h2]

theorem zeroW_comm {v w : Nat} (s : PanelSt K) : zeroW v (zeroW w s) = zeroW w (zeroW v s) := by
  unfold zeroW
  simp only [PanelSt.mk.injEq, and_true, true_and]
  funext u
  by_cases h1 : u = v <;> by_cases h2 : u = w <;> simp [h1, h2]

theorem takeHead_zeroW {g : PanelCfg K} {j v : Nat} (s : PanelSt K) : takeHead g j (zeroW v s) = zeroW v (takeHead g j s) := rfl

theorem takeHead_accW {g : PanelCfg K} {e j v i : Nat} (h : g.OK e) (hj : j < g.nrefls) (hi : i < g.ps.length) (hi0 : i ≠ 0)
    (s : PanelSt K) : takeHead g j (accW g j v i s) = accW g j v i (takeHead g j s) := by
  have h1 := (tailPiece_rows h hj hi).2.2.1 hi0
  unfold takeHead accW
  simp only [PanelSt.mk.injEq, and_true, true_and]
  funext u
  congr 1
  funext c
  congr 1
  refine Finset.sum_congr rfl fun r _ => ?_
  have hx : ¬ ((tailPiece g j i).1 + r = g.r0 + j) := by omega
  simp [hx]

theorem actsW_apart {g : PanelCfg K} {e j : Nat} (h : g.OK e) (hj : j < g.nrefls) (nw : Nat) :
    Bulk.Apart nw (actsW g nw j) := by
  have key : ∀ v w, v ≠ w → w ≠ 0 → ∀ a ∈ actsW g nw j v, ∀ b ∈ actsW g nw j w, ∀ s, a (b s) = b (a s) := by
    intro v w hvw hw0 a ha b hb s
    unfold actsW at ha hb
    rw [if_neg hw0, List.nil_append, List.mem_cons] at hb
    have hb' : b = zeroW w ∨ ∃ i, i < g.ps.length ∧ i ≠ 0 ∧ b = accW g j w i := by
      rcases hb with rfl | hb
      · exact Or.inl rfl
      · obtain ⟨i, hi, rfl⟩ := List.mem_map.1 hb
        exact Or.inr ⟨i, (mem_workerRange.1 hi).2.2, workerRange_pos hw0 hi, rfl⟩
    have ha' : a = takeHead g j ∨ a = zeroW v ∨ ∃ i, a = accW g j v i := by
      rcases List.mem_append.1 ha with ha | ha
      · by_cases hv : v = 0
        · rw [if_pos hv] at ha; exact Or.inl (by simpa using ha)
        · rw [if_neg hv] at ha; simp at ha
      · rcases List.mem_cons.1 ha with rfl | ha
        · exact Or.inr (Or.inl rfl)
        · obtain ⟨i, _, rfl⟩ := List.mem_map.1 ha
          exact Or.inr (Or.inr ⟨i, rfl⟩)
    rcases ha' with rfl | rfl | ⟨i, rfl⟩ <;> rcases hb' with rfl | ⟨i', hi', hi0, rfl⟩
    · exact takeHead_zeroW s
    · exact takeHead_accW h hj hi' hi0 s
    · exact zeroW_comm s
    · exact zeroW_accW_comm hvw s
    · exact (zeroW_accW_comm hvw.symm s).symm
    · exact accW_comm hvw s
  intro v _ w _ hvw a ha b hb s
  by_cases hw : w = 0
  · have hv : v ≠ 0 := by omega
    exact (key w v hvw.symm hv b hb a ha s).symm
  · exact key v w hvw hw a ha b hb s

theorem actsUpd_apart {g : PanelCfg K} {e j : Nat} (h : g.OK e) (hj : j < g.nrefls) (nw : Nat) :
    Bulk.Apart nw (actsUpd g nw j) := by
  intro v _ w _ hvw a ha b hb s
  obtain ⟨i, hi, rfl⟩ := List.mem_map.1 ha
  obtain ⟨i', hi', rfl⟩ := List.mem_map.1 hb
  refine updTile_comm h hj (mem_workerRange.1 hi).2.2 (mem_workerRange.1 hi').2.2 ?_ s
  rintro rfl
  exact workerRange_disj hvw hi hi'

theorem Bulk.apart_zero {S : Type*} {nw : Nat} {t : Nat → List (S → S)} (h : ∀ v, v ≠ 0 → t v = []) : Bulk.Apart nw t := by
  intro v _ w _ hvw a ha b hb
  by_cases hv : v = 0
  · rw [h w (by omega)] at hb; simp at hb
  · rw [h v hv] at ha; simp at ha

theorem Bulk.runAll_zero {S : Type*} {nw : Nat} (hw : 0 < nw) {t : Nat → List (S → S)} (h : ∀ v, v ≠ 0 → t v = []) (s : S) :
    Bulk.runAll t nw s = Bulk.runList (t 0) s := by
  induction nw with
  | zero => omega
  | succ n ih =>
    rw [Bulk.runAll]
    by_cases hn : n = 0
    · subst hn; rfl
    · rw [ih (by omega), h n hn]; rfl

/-! ### every schedule -/

theorem panel_seq {g : PanelCfg K} {e nw : Nat} (h : g.OK e) (hw : 0 < nw) : ∀ fuel j, fuel = g.nrefls - j →
    (∀ c s, panelCode g nw c s = panelTop g j → ∃ m, Bulk.Seq (panelCode g nw) nw c s (panelFrom g nw fuel j s) m) ∧
    (j < g.nrefls → ∀ s, ∃ m, Bulk.Seq (panelCode g nw) nw (.tau j) s
      (if s.taus j = 0 then panelFrom g nw (fuel - 1) (j + 1) s else if g.cols ≤ j + 1 then s
        else panelFrom g nw (fuel - 1) (j + 1) (panelTrail g nw j s)) m) := by
  intro fuel
  induction fuel with
  | zero =>
    intro j hj
    refine ⟨?_, fun h => by omega⟩
    intro c s hc
    refine ⟨0, Bulk.Seq.stop ?_⟩
    rw [hc]
    unfold panelTop
    rw [if_neg (by omega)]
  | succ fuel ih =>
    intro j hj
    obtain ⟨ih1, ih2⟩ := ih (j + 1) (by omega)
    have hlt : j < g.nrefls := by omega
    have Q : ∀ s, ∃ m, Bulk.Seq (panelCode g nw) nw (.tau j) s
        (if s.taus j = 0 then panelFrom g nw fuel (j + 1) s else if g.cols ≤ j + 1 then s
          else panelFrom g nw fuel (j + 1) (panelTrail g nw j s)) m := by
      intro s
      by_cases h0 : s.taus j = 0
      · rw [if_pos h0]
        refine ih1 (.tau j) s ?_
        show (if s.taus j = 0 then _ else _) = _
        rw [if_pos h0]
      · rw [if_neg h0]
        by_cases hc : g.cols ≤ j + 1
        · rw [if_pos hc]
          refine ⟨0, Bulk.Seq.stop ?_⟩
          show (if s.taus j = 0 then _ else _) = _
          rw [if_neg h0, if_pos hc]
        · rw [if_neg hc]
          suffices hs : ∃ m, Bulk.Seq (panelCode g nw) nw (.upd j)
              (Bulk.runAll (actsUpd g nw j) nw (reduceW nw (Bulk.runAll (actsW g nw j) nw s)))
              (panelFrom g nw fuel (j + 1) (panelTrail g nw j s)) m by
            obtain ⟨m, hs⟩ := hs
            refine ⟨_, Bulk.Seq.phase (p := (actsW g nw j, .wDone j)) ?_ (actsW_apart h hlt nw)
              (Bulk.Seq.phase (p := (actsReduce nw, .wSum j)) rfl (Bulk.apart_zero fun v hv => if_neg hv)
                (Bulk.Seq.phase (m := m) (p := (actsUpd g nw j, .upd j)) rfl (actsUpd_apart h hlt nw) ?_))⟩
            · show (if s.taus j = 0 then _ else _) = _
              rw [if_neg h0, if_neg hc]
            · dsimp only
              rw [Bulk.runAll_zero (t := actsReduce nw) hw (fun v hv => if_neg hv)]
              exact hs
          by_cases hj1 : j + 1 < g.nrefls
          · obtain ⟨m, hs⟩ := ih2 hj1 (reflTau g (j + 1) (panelTrail g nw j s))
            obtain ⟨f', rfl⟩ : ∃ f', fuel = f' + 1 := ⟨fuel - 1, by omega⟩
            refine ⟨_, Bulk.Seq.phase (m := m) (p := (actsHead g j, .tau (j + 1))) ?_ (Bulk.apart_zero fun v hv => if_neg hv) ?_⟩
            · show some (_, _) = _
              rw [if_pos hj1]
            · dsimp only
              rw [Bulk.runAll_zero (t := actsHead g j) hw (fun v hv => if_neg hv)]
              have e1 : Bulk.runList (actsHead g j 0)
                  (Bulk.runAll (actsUpd g nw j) nw (reduceW nw (Bulk.runAll (actsW g nw j) nw s))) =
                  reflTau g (j + 1) (panelTrail g nw j s) := by
                unfold actsHead
                rw [if_pos rfl, if_pos hj1]
                rfl
              rw [e1]
              exact hs
          · refine ⟨_, Bulk.Seq.phase (m := 0) (p := (actsHead g j, .fin)) ?_ (Bulk.apart_zero fun v hv => if_neg hv) ?_⟩
            · show some (_, _) = _
              rw [if_neg hj1]
            · dsimp only
              rw [Bulk.runAll_zero (t := actsHead g j) hw (fun v hv => if_neg hv)]
              have : fuel = 0 := by omega
              subst this
              have e1 : Bulk.runList (actsHead g j 0)
                  (Bulk.runAll (actsUpd g nw j) nw (reduceW nw (Bulk.runAll (actsW g nw j) nw s))) =
                  panelTrail g nw j s := by
                unfold actsHead
                rw [if_pos rfl, if_neg hj1]
                rfl
              rw [e1]
              exact Bulk.Seq.stop rfl
    refine ⟨?_, fun _ => Q⟩
    intro c s hc
    obtain ⟨m, hs⟩ := Q (reflTau g j s)
    refine ⟨_, Bulk.Seq.phase (m := m) (p := (fun v => if v = 0 then [reflTau g j] else [], .tau j)) ?_
      (Bulk.apart_zero fun v hv => if_neg hv) ?_⟩
    · rw [hc]
      unfold panelTop
      rw [if_pos hlt]
    · rw [Bulk.runAll_zero hw (fun v hv => if_neg hv)]
      exact hs

theorem panelWorkers_pos {avail n : Nat} (ha : 0 < avail) : 0 < panelWorkers avail n := by
  unfold panelWorkers clampN
  split
  · omega
  · split <;> omega

end DLAF
