import Verif.Lemmas.DistMergeRun
/- The steps 2 to 4 of the distributed merge: the local steps. -/
namespace DLAF
namespace DistMerge
open DLAF.C34 DLAF.C67

/-- The windows of the columns of `A` in the order `i5`. -/
def permWin (off n : Nat) (i5 : List Nat) (A0 A1 : Nat → Nat → ℝ) : Nat → Nat → ℝ := fun x y =>
  if (off ≤ x ∧ x < off + n) ∧ (off ≤ y ∧ y < off + n) then A0 x (off + i5.getD (y - off) 0) else A1 x y

/-- The window of the rank-one solver's eigenvectors. -/
def vecWin (off n k : Nat) (i4 i6 : List Nat) (W : Nat → Nat → ℝ) (A2 : Nat → Nat → ℝ) : Nat → Nat → ℝ := fun x y =>
  if (off ≤ x ∧ x < off + n) ∧ (off ≤ y ∧ y < off + n) then
    if i4.getD (x - off) 0 < k ∧ i6.getD (y - off) 0 < k then W (i4.getD (x - off) 0) (i6.getD (y - off) 0) else 0
  else A2 x y

section
variable {P : Params2} {M : MgPar} {nb ib n1 n2 : Nat} (h : MergeIn P M nb ib n1 n2)
include h

theorem MergeIn.permLocal_holds {r : Coord2} (hr : r ∈ P.ranks) {R : DistPart.Result}
    (hR : DistPart.stablePartition ((subP P (ib * nb) (n1 + n2)).col.onRank r.col).dist M.types M.d M.perm M.out1 M.out2 = some R)
    {A0 A1 : Nat → Nat → ℝ} {st : MgSt} (h0 : HoldsLoc P r st.ev.e0 A0) (h1 : HoldsLoc P r st.ev.e1 A1) :
    HoldsLoc P r (permLocal (P.on r) ((subP P (ib * nb) (n1 + n2)).on r) ib R.i5_lc st).ev.e1 (permWin (ib * nb) (n1 + n2) R.index_sorted_coltype A0 A1) := by
  obtain ⟨c0, c1⟩ : 0 ≤ r.col ∧ r.col < P.col.grid := Params2.mem_ranks.1 hr .Col
  have hvc := h.square.col.valid
  have hv := hvc.sub (o := (ib * nb : Nat)) (n := (n1 + n2 : Nat)) (by omega) (by omega)
  have hv' := hv.onRank c0 c1
  intro x y hx hy ox oy
  show (if inWin (P.on r) ((subP P (ib * nb) (n1 + n2)).on r) ib (P.row.localPos x) (P.col.localPos y) then _ else _) = _
  unfold permWin
  by_cases hw : (ib * nb ≤ x ∧ x < ib * nb + (n1 + n2)) ∧ (ib * nb ≤ y ∧ y < ib * nb + (n1 + n2))
  · rw [if_pos ((h.win hr ox oy).2 hw), if_pos hw]
    obtain ⟨e, rfl⟩ : ∃ e, y = ib * nb + e := ⟨y - ib * nb, by omega⟩
    obtain ⟨l, a1, a2, a3⟩ := win_here hvc (off := ib * nb) (n := n1 + n2) (e := e) (by omega) oy
    have e1 := win_localPos P.col (ib * nb) (n1 + n2) e oy
    rw [a3] at e1
    rw [e1, h.col0 hr, show (((winBase P.col (ib * nb) r.col : Int) + (l : Int) - (winBase P.col (ib * nb) r.col : Int)).toNat) = l by omega]
    obtain ⟨-, -, q⟩ := C67_local_indices (p := (P.col.sub (ib * nb : Nat) (n1 + n2 : Nat)).onRank r.col) hv' rfl h.types_len h.d_len h.out1_len h.out2_len h.perm hR
    obtain ⟨m, m1, m2, m3⟩ := q l a1
    obtain ⟨b1, b2, b3⟩ := win_back hvc (off := ib * nb) (n := n1 + n2) c0 c1 (l := m) m2
    have e2 := win_localPos P.col (ib * nb) (n1 + n2) _ b2
    rw [b3] at e2
    have m3' : R.index_sorted_coltype[e]? = some (localColumn (P.col.sub (ib * nb : Nat) (n1 + n2 : Nat)) r.col m) := by rw [← a2]; exact m3
    rw [List.getD_eq_getElem?_getD, m1, Option.getD_some, Nat.add_sub_cancel_left, List.getD_eq_getElem?_getD, m3', Option.getD_some, ← e2]
    have := h.square.size
    have := h.fits
    exact h0 _ _ hx (by push_cast at *; omega) ox b2
  · rw [if_neg (fun hc => hw ((h.win hr ox oy).1 hc)), if_neg hw]
    exact h1 x y hx hy ox oy

/-- The window of `e2` by its local elements. -/
theorem MergeIn.inWin_local {r : Coord2} (hr : r ∈ P.ranks) {x y : Nat} (hx : x < localColumns (P.row.sub (ib * nb : Nat) (n1 + n2 : Nat)) r.row)
    (hy : y < localColumns (P.col.sub (ib * nb : Nat) (n1 + n2 : Nat)) r.col) :
    inWin (P.on r) ((subP P (ib * nb) (n1 + n2)).on r) ib (DistMerge.row0 (P.on r) ib + x) (DistMerge.col0 (P.on r) ib + y) := by
  obtain ⟨r0, r1⟩ : 0 ≤ r.row ∧ r.row < P.row.grid := Params2.mem_ranks.1 hr .Row
  obtain ⟨c0, c1⟩ : 0 ≤ r.col ∧ r.col < P.col.grid := Params2.mem_ranks.1 hr .Col
  obtain ⟨a1, a2, a3⟩ := win_back h.square.row.valid (off := ib * nb) (n := n1 + n2) r0 r1 hx
  obtain ⟨b1, b2, b3⟩ := win_back h.square.col.valid (off := ib * nb) (n := n1 + n2) c0 c1 hy
  have e1 := win_localPos P.row (ib * nb) (n1 + n2) _ a2
  have e2 := win_localPos P.col (ib * nb) (n1 + n2) _ b2
  rw [a3] at e1
  rw [b3] at e2
  rw [h.row0 hr, h.col0 hr, ← e1, ← e2, h.win hr a2 b2]
  omega

theorem MergeIn.zero_q {r : Coord2} (hr : r ∈ P.ranks) (st : MgSt) {x y : Nat} (hx : x < localColumns (P.row.sub (ib * nb : Nat) (n1 + n2 : Nat)) r.row)
    (hy : y < localColumns (P.col.sub (ib * nb : Nat) (n1 + n2 : Nat)) r.col) :
    (loadQ (P.on r) ib (zeroE2 (P.on r) ((subP P (ib * nb) (n1 + n2)).on r) ib st)).r1.q x y = 0 :=
  if_pos (h.inWin_local hr hx hy)

theorem MergeIn.storeQ_holds {r : Coord2} (hr : r ∈ P.ranks) {k : Nat} {g : DR1Cfg} (hk : g.k = k) {klc : Int → Nat}
    (hf : Rank1Fits (subP P (ib * nb) (n1 + n2)) (n1 + n2) g.k g.i4 g.i6 g.i2 klc)
    {A2 : Nat → Nat → ℝ} {st : MgSt} {q : Nat → Nat → ℝ} (h2 : ∀ x y : Nat, (x : Int) < P.row.size → (y : Int) < P.col.size → P.row.owner x = r.row → P.col.owner y = r.col →
      ¬ ((ib * nb ≤ x ∧ x < ib * nb + (n1 + n2)) ∧ (ib * nb ≤ y ∧ y < ib * nb + (n1 + n2))) → st.ev.e2 (P.row.localPos x) (P.col.localPos y) = A2 x y)
    (hq0 : ∀ x < localColumns (P.row.sub (ib * nb : Nat) (n1 + n2 : Nat)) r.row, ∀ y < localColumns (P.col.sub (ib * nb : Nat) (n1 + n2 : Nat)) r.col, q x y = 0)
    {W : Nat → Nat → ℝ} (hq : st.r1.q = DistR1.qOf g (subP P (ib * nb) (n1 + n2)) klc r q W) :
    HoldsLoc P r (storeQ (P.on r) ((subP P (ib * nb) (n1 + n2)).on r) ib st).ev.e2 (vecWin (ib * nb) (n1 + n2) k g.i4 g.i6 W A2) := by
  subst hk
  obtain ⟨c0, c1⟩ : 0 ≤ r.col ∧ r.col < P.col.grid := Params2.mem_ranks.1 hr .Col
  intro x y hx hy ox oy
  show (if inWin (P.on r) ((subP P (ib * nb) (n1 + n2)).on r) ib (P.row.localPos x) (P.col.localPos y) then _ else _) = _
  unfold vecWin
  by_cases hw : (ib * nb ≤ x ∧ x < ib * nb + (n1 + n2)) ∧ (ib * nb ≤ y ∧ y < ib * nb + (n1 + n2))
  · rw [if_pos ((h.win hr ox oy).2 hw), if_pos hw]
    obtain ⟨e, rfl⟩ : ∃ e, x = ib * nb + e := ⟨x - ib * nb, by omega⟩
    obtain ⟨f, rfl⟩ : ∃ f, y = ib * nb + f := ⟨y - ib * nb, by omega⟩
    obtain ⟨l, a1, a2, a3⟩ := win_here h.square.row.valid (off := ib * nb) (n := n1 + n2) (e := e) (by omega) ox
    obtain ⟨m, b1, b2, b3⟩ := win_here h.square.col.valid (off := ib * nb) (n := n1 + n2) (e := f) (by omega) oy
    have e1 := win_localPos P.row (ib * nb) (n1 + n2) _ ox
    have e2 := win_localPos P.col (ib * nb) (n1 + n2) _ oy
    rw [a3] at e1
    rw [b3] at e2
    rw [e1, e2, h.row0 hr, h.col0 hr, show (((winBase P.row (ib * nb) r.row : Int) + (l : Int) - (winBase P.row (ib * nb) r.row : Int)).toNat) = l by omega,
      show (((winBase P.col (ib * nb) r.col : Int) + (m : Int) - (winBase P.col (ib * nb) r.col : Int)).toNat) = m by omega,
      Nat.add_sub_cancel_left, Nat.add_sub_cancel_left, hq]
    unfold DistR1.qOf
    have p1 : placeRow (subP P (ib * nb) (n1 + n2)) g.i4 r.row l = g.i4.getD e 0 := by
      rw [← a2]; rfl
    have p2 : placeCol (subP P (ib * nb) (n1 + n2)) g.i6 r.col m = g.i6.getD f 0 := by
      rw [← b2]; rfl
    rw [p1, p2]
    have hs := (hf.split r.col c0 c1).2 m b1
    rw [show localColumn (subP P (ib * nb) (n1 + n2)).col r.col m = f from b2] at hs
    by_cases hc : g.i4.getD e 0 < g.k ∧ g.i6.getD f 0 < g.k
    · rw [if_pos hc, if_pos ⟨hs.2 hc.2, a1, hc.1⟩]
    · rw [if_neg hc, if_neg fun hc' => hc ⟨hc'.2.2, hs.1 hc'.1⟩]
      exact hq0 l a1 m b1
  · rw [if_neg (fun hc => hw ((h.win hr ox oy).1 hc)), if_neg hw]
    exact h2 x y hx hy ox oy hw

end
end DistMerge
end DLAF
