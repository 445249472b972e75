import Verif.Lemmas.RedBandPanel
import Verif.Lemmas.BtRedBand
/- The panel of the reduction to band: reflectors. -/
namespace DLAF
open scoped Classical
variable {K : Type*} [RCLike K]

/-! ### closed forms -/

theorem foldl_add_sum {X : Type*} (l : List X) (f : X → K) (a : K) : l.foldl (fun s x => s + f x) a = a + (l.map f).sum := by
  induction l generalizing a with
  | nil => simp
  | cons x l ih => rw [List.foldl_cons, ih, List.map_cons, List.sum_cons, add_assoc]

theorem head_chain {g : PanelCfg K} {e j : Nat} (h : g.OK e) (hj : j ≤ (g.ps.headD (0, 0)).2) :
    ∃ p ps, g.ps = p :: ps ∧ p.1 = g.r0 ∧ Chain (g.r0 + j) e ((p.1 + j, p.2 - j) :: ps) := by
  obtain ⟨p, ps, hps⟩ := List.exists_cons_of_ne_nil h.ne
  have hc := h.chain
  have er : g.r0 = p.1 := by unfold PanelCfg.r0; rw [hps]; rfl
  rw [hps] at hc hj
  refine ⟨p, ps, hps, er.symm, ?_, ?_⟩
  · rw [er]
  · have := hc.2
    simp only [List.headD_cons] at hj
    convert this using 1
    simp only
    omega

theorem x0AndSquares_eq {g : PanelCfg K} {e j : Nat} (h : g.OK e) (hj : j < g.nrefls) (a : Elems K) :
    x0AndSquares g a j = (a (g.r0 + j) (g.c0 + j),
      ∑ x ∈ Finset.Ico (g.r0 + j) e, star (a x (g.c0 + j)) * a x (g.c0 + j)) := by
  obtain ⟨p, ps, h1, h2, h3⟩ := head_chain h (j := j) (by have := h.head; omega)
  unfold x0AndSquares
  rw [h1]
  simp only
  rw [foldl_add_sum, h2, ← h3.sum]
  simp only [List.map_cons, List.sum_cons, h2]
  rfl

theorem scal_chain (alpha : K) (c : Nat) : ∀ (ps : List (Nat × Nat)) (a e : Nat) (m : Elems K), Chain a e ps →
    ps.foldl (scalCol alpha c) m = fun x y => if y = c ∧ a ≤ x ∧ x < e then alpha * m x y else m x y
  | [], a, e, m, h => by
    have h' : a = e := h
    subst h'
    funext x y
    rw [if_neg (by omega)]
    rfl
  | p :: ps, a, e, m, h => by
    have h1 := h.1
    have h2 := h.2.le
    rw [List.foldl_cons, scal_chain alpha c ps _ _ _ h.2]
    funext x y
    simp only [scalCol]
    by_cases hy : y = c
    · by_cases hx : a + p.2 ≤ x ∧ x < e
      · rw [if_pos ⟨hy, hx⟩, if_neg (by omega), if_pos ⟨hy, by omega⟩]
      · rw [if_neg (by omega)]
        by_cases hx2 : p.1 ≤ x ∧ x < p.1 + p.2
        · rw [if_pos ⟨hy, hx2⟩, if_pos ⟨hy, by omega⟩]
        · rw [if_neg (by omega), if_neg (by omega)]
    · rw [if_neg (by omega), if_neg (by omega), if_neg (by omega)]

theorem scaleReflector_eq {g : PanelCfg K} {e j : Nat} (h : g.OK e) (hj : j < g.nrefls) (alpha : K) (a : Elems K) :
    scaleReflector g alpha a j = fun x y =>
      if y = g.c0 + j ∧ g.r0 + (j + 1) ≤ x ∧ x < e then alpha * a x y else a x y := by
  obtain ⟨p, ps, h1, h2, h3⟩ := head_chain h (j := j + 1) (by have := h.head; omega)
  unfold scaleReflector
  rw [h1]
  simp only
  rw [← List.foldl_cons (f := scalCol alpha (g.c0 + j)), scal_chain alpha (g.c0 + j) _ _ _ _ h3]

/-- `computeReflectorAndTau` with its results. -/
theorem reflTau_eq {g : PanelCfg K} {e j : Nat} (h : g.OK e) (hj : j < g.nrefls) (s : PanelSt K) :
    (∃ sq : K, sq = ∑ x ∈ Finset.Ico (g.r0 + j) e, star (s.a x (g.c0 + j)) * s.a x (g.c0 + j) ∧
      ((sq = 0 ∧ reflTau g j s = { s with taus := fun i => if i = j then 0 else s.taus i }) ∨
      (sq ≠ 0 ∧ ∃ y : K, (y = (Real.sqrt (RCLike.re sq) : ℝ) ∧ g.signbit (s.a (g.r0 + j) (g.c0 + j)) = true ∨
          y = -((Real.sqrt (RCLike.re sq) : ℝ) : K) ∧ g.signbit (s.a (g.r0 + j) (g.c0 + j)) = false) ∧
        reflTau g j s = { s with
          a := fun x c => if c = g.c0 + j ∧ g.r0 + (j + 1) ≤ x ∧ x < e then
              1 / (s.a (g.r0 + j) (g.c0 + j) - y) * s.a x c else if x = g.r0 + j ∧ c = g.c0 + j then y else s.a x c
          taus := fun i => if i = j then (y - s.a (g.r0 + j) (g.c0 + j)) / y else s.taus i }))) := by
  refine ⟨_, rfl, ?_⟩
  unfold reflTau
  rw [x0AndSquares_eq h hj]
  simp only
  by_cases h0 : ∑ x ∈ Finset.Ico (g.r0 + j) e, star (s.a x (g.c0 + j)) * s.a x (g.c0 + j) = 0
  · left
    exact ⟨h0, by rw [if_pos h0]⟩
  · right
    refine ⟨h0, if g.signbit (s.a (g.r0 + j) (g.c0 + j)) = true then
      ((Real.sqrt (RCLike.re (∑ x ∈ Finset.Ico (g.r0 + j) e, star (s.a x (g.c0 + j)) * s.a x (g.c0 + j))) : ℝ) : K) else
      -((Real.sqrt (RCLike.re (∑ x ∈ Finset.Ico (g.r0 + j) e, star (s.a x (g.c0 + j)) * s.a x (g.c0 + j))) : ℝ) : K), ?_, ?_⟩
    · by_cases hs : g.signbit (s.a (g.r0 + j) (g.c0 + j)) = true
      · left; exact ⟨if_pos hs, hs⟩
      · right; exact ⟨if_neg hs, by simpa using hs⟩
    · rw [if_neg h0, scaleReflector_eq h hj]
      simp only [PanelSt.mk.injEq, and_true]
      funext x c
      by_cases hc : c = g.c0 + j ∧ g.r0 + (j + 1) ≤ x ∧ x < e
      · rw [if_pos hc, if_pos hc, if_neg (show ¬ (x = g.r0 + j ∧ c = g.c0 + j) by omega)]
      · rw [if_neg hc, if_neg hc]

/-! ### the trailing update -/

/-- Contribution of tile `i` to `w`. -/
noncomputable def wPart (g : PanelCfg K) (j : Nat) (a : Elems K) (c i : Nat) : K :=
  ∑ r ∈ Finset.range (tailPiece g j i).2,
    star (a ((tailPiece g j i).1 + r) (g.c0 + j + 1 + c)) * a ((tailPiece g j i).1 + r) (g.c0 + j)

theorem run_accW (g : PanelCfg K) (j v : Nat) (l : List Nat) (s : PanelSt K) :
    Bulk.runList (l.map (accW g j v)) s =
      { s with w := fun u => if u = v then fun c => (l.map (wPart g j s.a c)).sum + s.w v c else s.w u } := by
  induction l generalizing s with
  | nil =>
    rw [List.map_nil, Bulk.runList_nil]
    cases s
    simp only [PanelSt.mk.injEq, and_true, true_and]
    funext u
    by_cases hu : u = v
    · subst hu; simp
    · simp [hu]
  | cons i l ih =>
    rw [List.map_cons, Bulk.runList_cons, ih]
    unfold accW
    simp only [PanelSt.mk.injEq, and_true, true_and, if_true]
    funext u
    by_cases hu : u = v
    · subst hu
      simp only [if_true]
      funext c
      rw [List.map_cons, List.sum_cons]
      unfold wPart
      ring
    · simp [hu]

/-- The matrix with the head of the reflector set to one. -/
noncomputable def withHead (g : PanelCfg K) (j : Nat) (a : Elems K) : Elems K := fun x c =>
  if x = g.r0 + j ∧ c = g.c0 + j then 1 else a x c

theorem run_actsW (g : PanelCfg K) (nw j : Nat) (s : PanelSt K) : ∀ m, Bulk.runAll (actsW g nw j) (m + 1) s =
    { s with a := withHead g j s.a, y := s.a (g.r0 + j) (g.c0 + j),
             w := fun u => if u < m + 1 then
               fun c => ((workerRange g.ps.length nw u).map (wPart g j (withHead g j s.a) c)).sum else s.w u } := by
  intro m
  induction m with
  | zero =>
    rw [Bulk.runAll, Bulk.runAll, actsW, if_pos rfl, List.singleton_append, Bulk.runList_cons, Bulk.runList_cons, run_accW]
    unfold takeHead zeroW
    simp only [PanelSt.mk.injEq, true_and, and_true, if_true]
    refine ⟨rfl, ?_⟩
    funext u
    by_cases hu : u = 0
    · subst hu
      simp only [if_true, Nat.zero_add, Nat.lt_one_iff, add_zero]
      rfl
    · rw [if_neg hu, if_neg hu, if_neg (by omega)]
  | succ m ih =>
    rw [Bulk.runAll, ih, actsW, if_neg (by omega), List.nil_append, Bulk.runList_cons, run_accW]
    unfold zeroW
    simp only [PanelSt.mk.injEq, true_and, and_true, if_true]
    funext u
    by_cases hu : u = m + 1
    · subst hu
      simp only [if_true]
      rw [if_pos (by omega)]
      funext c
      rw [add_zero]
    · rw [if_neg hu, if_neg hu]
      by_cases h2 : u < m + 1
      · rw [if_pos h2, if_pos (by omega)]
      · rw [if_neg h2, if_neg (by omega)]

theorem reduceW_zero (nw : Nat) (s : PanelSt K) (c : Nat) :
    (reduceW (nw + 1) s).w 0 c = ((List.range (nw + 1)).map fun u => s.w u c).sum := by
  unfold reduceW
  simp only [if_true]
  rw [foldl_add_sum, upto_one_range, List.map_cons, List.sum_cons]

theorem sum_flatMap {X : Type*} (l : List X) (f : X → List Nat) (h : Nat → K) :
    ((l.flatMap f).map h).sum = (l.map fun u => ((f u).map h).sum).sum := by
  induction l with
  | nil => rfl
  | cons x l ih => rw [List.flatMap_cons, List.map_append, List.sum_append, ih, List.map_cons, List.sum_cons]

/-- Update of the rows of a chain of tiles. -/
theorem run_upd (g : PanelCfg K) (j : Nat) : ∀ (l : List Nat) (a e : Nat) (s : PanelSt K), Chain a e (l.map (tailPiece g j)) →
    Bulk.runList (l.map (updTile g j)) s =
    { s with
      a := fun x c =>
        if (a ≤ x ∧ x < e) ∧ g.c0 + j + 1 ≤ c ∧ c < g.c0 + g.cols then
          -(star (s.taus j)) * s.a x (g.c0 + j) * star (s.w 0 (c - (g.c0 + j + 1))) + s.a x c
        else s.a x c }
  | [], a, e, s, h => by
    have h' : a = e := h
    subst h'
    rw [List.map_nil, Bulk.runList_nil]
    cases s
    simp only [PanelSt.mk.injEq, and_true]
    funext x c
    rw [if_neg (by omega)]
  | i :: l, a, e, s, h => by
    rw [List.map_cons] at h
    have h1 := h.1
    have h2 := h.2.le
    rw [List.map_cons, Bulk.runList_cons, run_upd g j l _ _ _ h.2]
    unfold updTile
    simp only [PanelSt.mk.injEq, and_true]
    generalize tailPiece g j i = p at *
    funext x c
    rw [if_neg (show ¬ ((p.1 ≤ x ∧ x < p.1 + p.2) ∧ g.c0 + j + 1 ≤ g.c0 + j ∧ g.c0 + j < g.c0 + g.cols) by omega)]
    by_cases hc : g.c0 + j + 1 ≤ c ∧ c < g.c0 + g.cols
    · by_cases hx : a + p.2 ≤ x ∧ x < e
      · rw [if_pos ⟨hx, hc⟩, if_neg (by omega), if_pos ⟨by omega, hc⟩]
      · rw [if_neg (by omega)]
        by_cases hx2 : p.1 ≤ x ∧ x < p.1 + p.2
        · rw [if_pos ⟨hx2, hc⟩, if_pos ⟨by omega, hc⟩]
        · rw [if_neg (by omega), if_neg (by omega)]
    · rw [if_neg (by omega), if_neg (by omega), if_neg (by omega)]

theorem panelTrail_eq {g : PanelCfg K} {e j nw : Nat} (h : g.OK e) (hj : j < g.nrefls) (hw : 0 < nw) (s : PanelSt K) :
    (panelTrail g nw j s).taus = s.taus ∧ (panelTrail g nw j s).a = fun x c =>
      if (g.r0 + j ≤ x ∧ x < e) ∧ g.c0 + j + 1 ≤ c ∧ c < g.c0 + g.cols then
        s.a x c - star (s.taus j) * withHead g j s.a x (g.c0 + j) *
          ∑ z ∈ Finset.Ico (g.r0 + j) e, star (withHead g j s.a z (g.c0 + j)) * s.a z c
      else s.a x c := by
  obtain ⟨m, rfl⟩ : ∃ m, nw = m + 1 := ⟨nw - 1, by omega⟩
  have hch := tails_chain h hj
  have hs : ∀ c, (reduceW (m + 1) (Bulk.runAll (actsW g (m + 1) j) (m + 1) s)).w 0 c =
      ∑ z ∈ Finset.Ico (g.r0 + j) e, star (withHead g j s.a z (g.c0 + j + 1 + c)) * withHead g j s.a z (g.c0 + j) := by
    intro c
    rw [reduceW_zero, run_actsW]
    have e1 : (List.range (m + 1)).map (fun u => (if u < m + 1 then
        fun c => ((workerRange g.ps.length (m + 1) u).map (wPart g j (withHead g j s.a) c)).sum else s.w u) c) =
        (List.range (m + 1)).map (fun u => ((workerRange g.ps.length (m + 1) u).map (wPart g j (withHead g j s.a) c)).sum) := by
      refine List.map_congr_left fun u hu => ?_
      rw [List.mem_range] at hu
      rw [if_pos hu]
    simp only
    rw [e1, ← sum_flatMap, workerRange_all (by omega), ← hch.sum, List.map_map]
    rfl
  unfold panelTrail putHead
  have hupd : Bulk.runAll (actsUpd g (m + 1) j) (m + 1) (reduceW (m + 1) (Bulk.runAll (actsW g (m + 1) j) (m + 1) s)) = _ :=
    (Bulk.runAll_flat _ _ _).trans ((congrArg (fun l => Bulk.runList l _) (by
      show (List.range (m + 1)).flatMap (fun v => (workerRange g.ps.length (m + 1) v).map (updTile g j)) = _
      rw [← List.map_flatMap, workerRange_all (by omega)])).trans (run_upd g j _ _ _ _ hch))
  rw [hupd]
  have ht : (reduceW (m + 1) (Bulk.runAll (actsW g (m + 1) j) (m + 1) s)).taus = s.taus := by rw [run_actsW]; rfl
  have ha : (reduceW (m + 1) (Bulk.runAll (actsW g (m + 1) j) (m + 1) s)).a = withHead g j s.a := by rw [run_actsW]; rfl
  have hy : (reduceW (m + 1) (Bulk.runAll (actsW g (m + 1) j) (m + 1) s)).y = s.a (g.r0 + j) (g.c0 + j) := by
    rw [run_actsW]; rfl
  refine ⟨ht, ?_⟩
  simp only [ht, ha, hy, hs]
  funext x c
  by_cases hh : x = g.r0 + j ∧ c = g.c0 + j
  · rw [if_pos hh, if_neg (by omega), hh.1, hh.2]
  · rw [if_neg hh]
    have hx : withHead g j s.a x c = s.a x c := if_neg hh
    by_cases hc : (g.r0 + j ≤ x ∧ x < e) ∧ g.c0 + j + 1 ≤ c ∧ c < g.c0 + g.cols
    · rw [if_pos hc, if_pos hc, hx, star_sum]
      have e2 : ∑ z ∈ Finset.Ico (g.r0 + j) e, star (star (withHead g j s.a z (g.c0 + j + 1 + (c - (g.c0 + j + 1)))) *
          withHead g j s.a z (g.c0 + j)) =
          ∑ z ∈ Finset.Ico (g.r0 + j) e, star (withHead g j s.a z (g.c0 + j)) * s.a z c := by
        refine Finset.sum_congr rfl fun z _ => ?_
        rw [show g.c0 + j + 1 + (c - (g.c0 + j + 1)) = c by omega, star_mul, star_star]
        congr 1
        exact if_neg (by omega)
      rw [e2]
      ring
    · rw [if_neg hc, if_neg hc, hx]

end DLAF
