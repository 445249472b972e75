import Verif.Lemmas.RefWin
import Verif.Lemmas.DistPartition2
import Verif.Lemmas.DistWin
/- The window of a sub-problem in the local part of a matrix. -/
namespace DLAF

theorem countBelow_split (o e : Nat) (f : Int → Bool) : countBelow (o + e) f = countBelow o f + countBelow e fun x => f (o + x) := by
  induction e with
  | zero => simp [countBelow_zero]
  | succ e ih =>
    rw [← Nat.add_assoc, countBelow_succ, countBelow_succ, ih]
    push_cast
    omega

theorem countBelow_const {m : Nat} {f : Int → Bool} {b : Bool} (h : ∀ i : Nat, i < m → f i = b) : countBelow m f = if b then m else 0 := by
  induction m with
  | zero => simp [countBelow_zero]
  | succ m ih =>
    rw [countBelow_succ, ih fun i hi => h i (by omega), h m (by omega)]
    cases b <;> simp

/-- Local elements of process `r` before the window. -/
def winBase (p : Params) (off : Nat) (r : Int) : Nat := countBelow off fun x => decide (p.owner x = r)

theorem winBase_eq {p : Params} (hp : Plain p) {nb : Nat} (ht : p.tile = nb) (ib : Nat) {r : Int} (h0 : 0 ≤ r) (h1 : r < p.grid) :
    (p.onRank r).dist.next_local_tile_from_global_tile ib * nb = winBase p (ib * nb) r := by
  have hv := hp.valid.onRank h0 h1
  have w := hv.wf
  have hb := hp.block
  have ho := hp.offset
  have htp : 0 < p.tile := hp.valid.2.2.1
  induction ib with
  | zero =>
    have : (p.onRank r).dist.next_local_tile_from_global_tile 0 = 0 := w.cyc.next_local_zero
    rw [Nat.cast_zero, this]
    simp [winBase, countBelow_zero]
  | succ ib ih =>
    have e1 : (p.onRank r).dist.next_local_tile_from_global_tile ((ib : Int) + 1) =
        (p.onRank r).dist.next_local_tile_from_global_tile ib + (if (p.onRank r).dist.rank = (p.onRank r).dist.rank_global_tile ib then 1 else 0) :=
      w.cyc.next_local_succ (by omega)
    have own : ∀ i : Nat, i < nb → p.owner ((ib * nb : Nat) + (i : Int)) = (p.onRank r).dist.rank_global_tile ib := by
      intro i hi
      have hnn : (0 : Int) ≤ (ib * nb : Nat) + (i : Int) := by omega
      have h2 := hv.owner_eq hnn
      have h3 : (p.onRank r).owner ((ib * nb : Nat) + (i : Int)) = p.owner ((ib * nb : Nat) + (i : Int)) := rfl
      rw [← h3, ← h2]
      unfold Dist1.rank_global_element
      rw [hv.tileOf_eq hnn]
      congr 1
      show (p.offset + ((ib * nb : Nat) + (i : Int))) / p.tile - p.offset / p.tile = ib
      rw [ho, ht, Int.zero_ediv, Int.sub_zero, Int.zero_add]
      push_cast
      rw [Int.add_comm, Int.add_mul_ediv_right _ _ (by omega), Int.ediv_eq_zero_of_lt (by omega) (by omega), Int.zero_add]
    have e2 : winBase p ((ib + 1) * nb) r = winBase p (ib * nb) r + if decide ((p.onRank r).dist.rank_global_tile ib = r) then nb else 0 := by
      unfold winBase
      rw [Nat.add_mul, Nat.one_mul, countBelow_split]
      congr 1
      exact countBelow_const fun i hi => by rw [own i hi]
    rw [e2, Nat.cast_add, Nat.cast_one, e1, Int.add_mul, ih, Nat.cast_add]
    congr 1
    have e3 : (p.onRank r).dist.rank = r := rfl
    rw [e3]
    by_cases h : (p.onRank r).dist.rank_global_tile ib = r
    · rw [if_pos h.symm, if_pos (by simpa using h), Int.one_mul]
    · rw [if_neg (fun h' => h h'.symm), if_neg (by simpa using h), Int.zero_mul, Nat.cast_zero]

theorem sub_owner (p : Params) (off n : Nat) (e : Int) : (p.sub off n).owner e = p.owner (off + e) := by
  unfold Params.owner Params.sub
  dsimp only
  rw [Int.add_assoc]

/-- Position of an element of the window. -/
theorem win_localPos (p : Params) (off n e : Nat) {r : Int} (ho : p.owner (off + e : Nat) = r) :
    p.localPos (off + e : Nat) = winBase p off r + (p.sub off n).localPos e := by
  unfold Params.localPos winBase
  rw [Int.toNat_natCast, Int.toNat_natCast, countBelow_split, ho]
  have h2 : (p.sub off n).owner e = r := by rw [sub_owner, ← ho]; push_cast; rfl
  rw [h2]
  simp only [sub_owner]
  push_cast
  rfl

/-- An element of the window by its local index. -/
theorem win_here {p : Params} (hp : p.Valid) {off n : Nat} {e : Nat} (he : e < n) {r : Int} (ho : p.owner (off + e : Nat) = r) :
    ∃ l : Nat, l < localColumns (p.sub off n) r ∧ localColumn (p.sub off n) r l = e ∧ (p.sub off n).localPos e = l := by
  have hq := hp.sub (o := off) (n := n) (by omega) (by omega)
  have h2 : (p.sub off n).owner e = r := by rw [sub_owner, ← ho]; push_cast; rfl
  obtain ⟨a, l, hl, el⟩ := DistPart.col_surj (p := p.sub off n) hq rfl he
  rw [h2] at a hl el
  obtain ⟨_, _, _, b4⟩ := DistPart.col_spec (p := p.sub off n) hq rfl a.1 a.2 hl
  rw [el] at b4
  have := (hq.onRank a.1 a.2).localPos_here (e := e) (by omega) h2
  exact ⟨l, hl, el, by rw [← b4, this]; rfl⟩

/-- The element of a local index. -/
theorem win_back {p : Params} (hp : p.Valid) {off n : Nat} {r : Int} (h0 : 0 ≤ r) (h1 : r < p.grid) {l : Nat} (hl : l < localColumns (p.sub off n) r) :
    localColumn (p.sub off n) r l < n ∧ p.owner (off + localColumn (p.sub off n) r l : Nat) = r ∧ (p.sub off n).localPos (localColumn (p.sub off n) r l) = l := by
  have hq := hp.sub (o := off) (n := n) (by omega) (by omega)
  obtain ⟨_, b2, b3, b4⟩ := DistPart.col_spec (p := p.sub off n) hq rfl h0 h1 hl
  have := (hq.onRank h0 h1).localPos_here (e := localColumn (p.sub off n) r l) (by omega) b3
  refine ⟨b2, ?_, ?_⟩
  · have h := b3
    rw [sub_owner] at h
    push_cast
    exact h
  · rw [← b4, this]; rfl

/-- Which local elements are in the window. -/
theorem win_iff {p : Params} (hp : p.Valid) {off n x : Nat} {r : Int} (h0 : 0 ≤ r) (h1 : r < p.grid) (ho : p.owner x = r) :
    ((winBase p off r : Int) ≤ p.localPos x ∧ p.localPos x < winBase p off r + (localColumns (p.sub off n) r : Nat)) ↔ off ≤ x ∧ x < off + n := by
  constructor
  · rintro ⟨u, v⟩
    obtain ⟨l, hl⟩ : ∃ l : Nat, p.localPos x = winBase p off r + (l : Int) := ⟨(p.localPos x - winBase p off r).toNat, by omega⟩
    obtain ⟨b1, b2, b3⟩ := win_back hp (off := off) (n := n) h0 h1 (l := l) (by omega)
    have := win_localPos p off n _ b2
    rw [b3, ← hl] at this
    have := localPos_inj (by omega) (by omega) (b2.trans ho.symm) this
    omega
  · rintro ⟨u, v⟩
    obtain ⟨e, rfl⟩ : ∃ e, x = off + e := ⟨x - off, by omega⟩
    obtain ⟨l, a1, a2, a3⟩ := win_here hp (off := off) (n := n) (e := e) (by omega) ho
    rw [win_localPos p off n e ho, a3]
    omega

end DLAF
