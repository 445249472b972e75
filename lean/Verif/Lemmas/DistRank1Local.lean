import Verif.Model.DistRank1
import Verif.Lemmas.Rank1Result
/- C68: the work of one process between two collectives. -/
namespace DLAF
namespace DistR1
open Finset
variable {g : DR1Cfg} {s : Distribution} {klc nt : Nat}

theorem byWorkers_list (hw : 0 < nt) (f : Nat → DR1St → DR1St) (st : DR1St) :
    byWorkers nt klc (fun _ J => J.map f) st = Bulk.runList ((List.range klc).map f) st := by
  unfold byWorkers
  rw [Bulk.runAll_flat, ← workerRange_all (nt := klc) hw, List.map_flatMap]

theorem clamp_pos {v avail : Nat} (h : 0 < avail) : 0 < clampN v 1 avail := by
  unfold clampN
  split
  · omega
  · split <;> omega

theorem run_deflEval (L : List Nat) (st : DR1St) : Bulk.runList (L.map (deflEval g s)) st =
    { st with evals := fun e => if ∃ y ∈ L, gCol s y = e then g.d (g.i6.getD e 0) else st.evals e } := by
  induction L generalizing st with
  | nil => simp [Bulk.runList]
  | cons y L ih =>
    rw [List.map_cons, Bulk.runList_cons, ih]
    unfold deflEval
    congr 1
    funext e
    dsimp only
    by_cases h1 : ∃ y ∈ L, gCol s y = e
    · rw [if_pos h1, if_pos (by obtain ⟨z, hz, h⟩ := h1; exact ⟨z, List.mem_cons_of_mem _ hz, h⟩)]
    · rw [if_neg h1]
      by_cases h2 : e = gCol s y
      · rw [if_pos h2, if_pos ⟨y, List.mem_cons_self, h2.symm⟩, h2]
      · rw [if_neg h2, if_neg]
        rintro ⟨z, hz, h⟩
        rcases List.mem_cons.1 hz with rfl | hz
        · exact h2 h.symm
        · exact h1 ⟨z, hz, h⟩

theorem run_laed (L : List Nat) (st : DR1St) : Bulk.runList (L.map (laed g s)) st =
    { st with
      evals := fun e => if ∃ y ∈ L, gCol s y = e then (g.laed4 g.k (g.i6.getD e 0) g.d g.z g.rho).1 else st.evals e
      q := fun x y => if y ∈ L ∧ x < rows s ∧ is g s x < g.k then (g.laed4 g.k (js g s y) g.d g.z g.rho).2 (is g s x) else st.q x y } := by
  induction L generalizing st with
  | nil => simp [Bulk.runList]
  | cons j L ih =>
    rw [List.map_cons, Bulk.runList_cons, ih]
    unfold laed
    dsimp only
    congr 1
    · funext e
      by_cases h1 : ∃ y ∈ L, gCol s y = e
      · rw [if_pos h1, if_pos (by obtain ⟨z, hz, h⟩ := h1; exact ⟨z, List.mem_cons_of_mem _ hz, h⟩)]
      · rw [if_neg h1]
        by_cases h2 : e = gCol s j
        · rw [if_pos h2, if_pos ⟨j, List.mem_cons_self, h2.symm⟩, h2]; rfl
        · rw [if_neg h2, if_neg]
          rintro ⟨z, hz, h⟩
          rcases List.mem_cons.1 hz with rfl | hz
          · exact h2 h.symm
          · exact h1 ⟨z, hz, h⟩
    · funext x y
      by_cases h0 : x < rows s ∧ is g s x < g.k
      · by_cases h1 : y ∈ L
        · rw [if_pos ⟨h1, h0⟩, if_pos ⟨List.mem_cons_of_mem _ h1, h0⟩]
        · rw [if_neg (fun h => h1 h.1)]
          by_cases h2 : y = j
          · subst h2
            rw [if_pos ⟨rfl, h0⟩, if_pos ⟨List.mem_cons_self, h0⟩]
          · rw [if_neg (fun h => h2 h.1), if_neg]
            rintro ⟨h, _⟩
            rcases List.mem_cons.1 h with h | h
            · exact h2 h
            · exact h1 h
      · rw [if_neg (fun h => h0 h.2), if_neg (fun h => h0 h.2), if_neg (fun h => h0 h.2)]

theorem run_wCol (t : Nat) (J : List Nat) (st : DR1St) : Bulk.runList (J.map (wCol g s t)) st =
    { st with ws := fun u x => if u = t ∧ x < rows s then st.ws t x * (J.map (fac g s st.q x)).prod else st.ws u x } := by
  induction J generalizing st with
  | nil =>
    simp only [List.map_nil, Bulk.runList_nil, List.prod_nil, mul_one]
    have : (fun u x => if u = t ∧ x < rows s then st.ws t x else st.ws u x) = st.ws := by
      funext u x
      by_cases h : u = t ∧ x < rows s
      · rw [if_pos h, h.1]
      · rw [if_neg h]
    rw [this]
  | cons j J ih =>
    rw [List.map_cons, Bulk.runList_cons, ih]
    unfold wCol
    dsimp only
    congr 1
    funext u x
    by_cases h : u = t ∧ x < rows s
    · rw [if_pos h, if_pos h, if_pos ⟨rfl, h.2⟩, List.map_cons, List.prod_cons, mul_assoc]
    · rw [if_neg h, if_neg h, if_neg h]

theorem run_init (m : Nat) (st : DR1St) : Bulk.runAll (fun t => [initW g s t]) m st =
    { st with ws := fun u x => if u < m ∧ x < rows s then initVal g s st.q u x else st.ws u x } := by
  induction m with
  | zero => simp [Bulk.runAll]
  | succ m ih =>
    rw [Bulk.runAll, ih, Bulk.runList_cons, Bulk.runList_nil]
    unfold initW
    dsimp only
    congr 1
    funext u x
    by_cases hx : x < rows s
    · rcases Nat.lt_trichotomy u m with h | h | h
      · rw [if_neg (by omega), if_pos ⟨h, hx⟩, if_pos ⟨by omega, hx⟩]
      · rw [if_pos ⟨h, hx⟩, if_pos ⟨by omega, hx⟩, h]
      · rw [if_neg (by omega), if_neg (by omega), if_neg (by omega)]
    · rw [if_neg (fun h => hx h.2), if_neg (fun h => hx h.2), if_neg (fun h => hx h.2)]

theorem run_W (m : Nat) (st : DR1St) : Bulk.runAll (fun t => (workerRange klc nt t).map (wCol g s t)) m st =
    { st with ws := fun u x => if u < m ∧ x < rows s then st.ws u x * ((workerRange klc nt u).map (fac g s st.q x)).prod else st.ws u x } := by
  induction m with
  | zero => simp [Bulk.runAll]
  | succ m ih =>
    rw [Bulk.runAll, ih, run_wCol]
    dsimp only
    congr 1
    funext u x
    by_cases hx : x < rows s
    · rcases Nat.lt_trichotomy u m with h | h | h
      · rw [if_neg (by omega), if_pos ⟨h, hx⟩, if_pos ⟨by omega, hx⟩]
      · rw [if_pos ⟨h, hx⟩, if_neg (by omega), if_pos ⟨by omega, hx⟩, h]
      · rw [if_neg (by omega), if_neg (by omega), if_neg (by omega)]
    · rw [if_neg (fun h => hx h.2), if_neg (fun h => hx h.2), if_neg (fun h => hx h.2)]

/-- The contribution of a process to the weights. -/
theorem weights_local (hw : 0 < nt) (st : DR1St) :
    ∃ ws, redW s nt (byWorkers nt klc (fun t J => J.map (wCol g s t)) (Bulk.runAll (fun t => [initW g s t]) nt st)) = { st with ws := ws } ∧
      ∀ x < rows s, ws 0 x = initVal g s st.q 0 x * ∏ j ∈ range klc, fac g s st.q x j := by
  rw [run_init]
  unfold byWorkers
  rw [run_W]
  refine ⟨_, rfl, fun x hx => ?_⟩
  dsimp only
  rw [if_pos ⟨rfl, hx⟩]
  refine weight_all hw (initVal g s st.q 0 x) (fac g s st.q x) (fun t => if t < nt ∧ x < rows s then
    (if t < nt ∧ x < rows s then initVal g s st.q t x else st.ws t x) * ((workerRange klc nt t).map (fac g s st.q x)).prod
    else if t < nt ∧ x < rows s then initVal g s st.q t x else st.ws t x) fun t ht => ?_
  rw [if_pos ⟨ht, hx⟩, if_pos ⟨ht, hx⟩]
  by_cases h : t = 0
  · rw [if_pos h, h]
  · rw [if_neg h]
    congr 1
    unfold initVal
    rw [if_neg h]

theorem run_colQ (L : List Nat) (hL : L.Nodup) (st : DR1St) : Bulk.runList (L.map (colQ g s)) st =
    { st with
      q := fun x y => if y ∈ L ∧ x < rows s then (if is g s x < g.k then st.weights x / st.q x y else st.q x y) else st.q x y
      sums := fun y => if y ∈ L then st.sums y + ∑ x ∈ range (rows s), (if is g s x < g.k then st.weights x / st.q x y else st.q x y) ^ 2 else st.sums y } := by
  induction L generalizing st with
  | nil => simp [Bulk.runList]
  | cons j L ih =>
    obtain ⟨hj, hL⟩ := List.nodup_cons.1 hL
    rw [List.map_cons, Bulk.runList_cons, ih hL]
    unfold colQ
    dsimp only
    congr 1
    · funext x y
      by_cases hx : x < rows s
      · by_cases hy : y ∈ L
        · have hne : y ≠ j := fun h => hj (h ▸ hy)
          simp only [hy, hx, hne, List.mem_cons, or_true, and_self, if_true, false_and, if_false]
        · by_cases h2 : y = j
          · simp only [hy, hx, h2, hj, List.mem_cons, true_or, and_self, if_true, false_and, if_false]
          · simp only [hy, hx, h2, List.mem_cons, or_self, false_and, if_false]
      · simp only [hx, and_false, if_false]
    · funext y
      by_cases hy : y ∈ L
      · have hne : y ≠ j := fun h => hj (h ▸ hy)
        rw [if_pos hy, if_pos (List.mem_cons_of_mem _ hy)]
        simp [hne]
      · rw [if_neg hy]
        by_cases h2 : y = j
        · subst h2
          rw [if_pos rfl, if_pos List.mem_cons_self]
          congr 1
          exact Finset.sum_congr rfl fun x _ => (sq _).symm
        · rw [if_neg h2, if_neg]
          intro h
          rcases List.mem_cons.1 h with h | h
          · exact h2 h
          · exact hy h

theorem run_normC (L : List Nat) (hL : L.Nodup) (st : DR1St) : Bulk.runList (L.map (normC s)) st =
    { st with q := fun x y => if y ∈ L ∧ x < rows s then 1 / Real.sqrt (st.sums y) * st.q x y else st.q x y } := by
  induction L generalizing st with
  | nil => simp [Bulk.runList]
  | cons j L ih =>
    obtain ⟨hj, hL⟩ := List.nodup_cons.1 hL
    rw [List.map_cons, Bulk.runList_cons, ih hL]
    unfold normC
    dsimp only
    congr 1
    funext x y
    by_cases hx : x < rows s
    · by_cases hy : y ∈ L
      · have hne : y ≠ j := fun h => hj (h ▸ hy)
        simp only [hy, hx, hne, List.mem_cons, or_true, and_self, if_true, false_and, if_false]
      · by_cases h2 : y = j
        · simp only [hx, h2, hj, List.mem_cons, true_or, and_self, if_true, false_and, if_false]
        · simp only [hy, hx, h2, List.mem_cons, or_self, false_and, if_false]
    · simp only [hx, and_false, if_false]

end DistR1
end DLAF
