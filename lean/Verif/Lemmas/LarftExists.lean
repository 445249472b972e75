import Verif.Lemmas.BtBandT
/- A `larft` that satisfies the contract: the T factor of the library itself. -/
namespace DLAF
variable {K : Type*} [Field K] [StarRing K]

/-- The T factor of one tile. -/
def larftStd (n k : Nat) (V : Nat → Nat → K) (tau : Nat → K) : Nat → Nat → K :=
  match computeTFactor 1 k [⟨n, k, unitLow V⟩] ⟨k, 1, fun i _ => tau i⟩ ⟨k, k, fun _ _ => 0⟩ [] with
  | some t => t.e
  | none => fun _ _ => 0

theorem larftStd_spec : LarftSpec (larftStd (K := K)) := by
  intro n k V tau hk hkn
  obtain ⟨F, h1, h2, h3⟩ := tfactor_win (avail := 1) (k := k) (n := n) (a := 0) (by omega) hk (V := unitLow V) (X := Unit)
    (g := fun _ => (0, n)) (t := fun _ => ⟨n, k, unitLow V⟩) (ps := [()]) (by simp) ⟨rfl, Nat.zero_add n⟩
    (fun p _ => ⟨rfl, rfl, fun r _ c _ => by simp⟩) (fun x hx => absurd hx (Nat.not_lt_zero _))
    (taus := ⟨k, 1, fun i _ => tau i⟩) (t0 := ⟨k, k, fun _ _ => 0⟩) (ws := []) ⟨rfl, rfl⟩ rfl (by simp) (by simp)
  have h4 : larftStd n k V tau = F := by
    unfold larftStd
    rw [show [(⟨n, k, unitLow V⟩ : Blk K)] = [()].map fun _ => ⟨n, k, unitLow V⟩ from rfl, h1]
  have h5 : toM k k (upperPart (larftStd n k V tau)) = toM k k F := by
    rw [h4]
    ext x y
    simp only [toM, upperPart]
    by_cases h : (x : Nat) ≤ y
    · rw [if_pos h]
    · rw [if_neg h, h2 y y.2 x x.2 (by omega)]
  rw [h5, h3]

end DLAF
