import Verif.Lemmas.RefWin
import Verif.Lemmas.SpmdLift
import Verif.Spec.DistMultEvecs
import Verif.Props.DistMultiplication
namespace DLAF
variable {K : Type*}

section
variable {p : Params} (hp : p.Valid)
include hp

theorem Params.Valid.tileStart_aux : ∀ i : Nat, i ≤ p.ntn → ((tileStart p.tileSizes i : Nat) : Int) =
    if i = 0 then 0 else if i = p.ntn then p.size else i * p.tile - p.offset % p.tile := by
  have w := hp.wf
  have n0 := w.nrTiles_nonneg
  have g0 := w.gteo_nonneg
  have g1 := w.gteo_lt
  have ge : p.dist.global_tile_element_offset = p.offset % p.tile := hp.gteo_eq
  have ht : p.dist.tileSize = p.tile := rfl
  have hsz : p.dist.size = p.size := rfl
  intro i
  induction i with
  | zero => intro _; simp [tileStart]
  | succ i ih =>
    intro h
    have hi : (i : Int) < p.dist.nrTiles := by unfold Params.ntn at h; omega
    have ih := ih (by omega)
    obtain ⟨q1, q2, q3⟩ := w.nrTiles_pos (w.size_pos_of (by omega))
    have hs := w.global_tsz (t := i) (by omega) hi
    have hpos := w.global_tsz_pos (t := i) (by omega) hi
    rw [ge, ht] at hs
    rw [ge, hsz, ht] at q2 q3
    have hN : ((p.ntn : Nat) : Int) = p.dist.nrTiles := by unfold Params.ntn; omega
    rw [tileStart_succ, Nat.cast_add, ih]
    unfold Params.tileSizes
    rw [Int.toNat_of_nonneg (by omega), hs, if_neg (Nat.succ_ne_zero i)]
    have e1 : ((i + 1 : Nat) : Int) * p.tile = i * p.tile + p.tile := by push_cast; ring
    rw [e1]
    by_cases h1 : i + 1 = p.ntn
    · have h2 : ¬ i = p.ntn := by omega
      have e3 : p.dist.nrTiles * p.tile = i * p.tile + p.tile := by rw [← hN, ← h1]; exact e1
      rw [if_pos h1, if_pos (show (i : Int) = p.dist.nrTiles - 1 by omega), hsz, e3, if_neg h2]
      by_cases h3 : i = 0
      · subst h3
        rw [if_pos rfl, if_pos (by simp)]
        simp
      · rw [if_neg h3, if_neg (show ¬ (i : Int) = 0 by omega)]
        omega
    · have h2 : ¬ i = p.ntn := by omega
      rw [if_neg h1, if_neg (show ¬ (i : Int) = p.dist.nrTiles - 1 by omega), if_neg h2]
      by_cases h3 : i = 0
      · subst h3
        rw [if_pos rfl, if_pos (by simp)]
        simp
      · rw [if_neg h3, if_neg (show ¬ (i : Int) = 0 by omega)]
        omega

theorem Params.Valid.tileStart_eq {i : Nat} (h : i < p.ntn) : ((tileStart p.tileSizes i : Nat) : Int) = p.tileBegin i := by
  rw [hp.tileStart_aux i (by omega)]
  have := hp.tileBegin_eq (t := i) (by omega) 0
  have htp : 0 < p.tile := hp.2.2.1
  have hm := Int.mul_ediv_add_emod p.offset p.tile
  have hm0 := Int.emod_nonneg p.offset (b := p.tile) (by omega)
  have hm1 := Int.emod_lt_of_pos p.offset htp
  have e : (p.offset / p.tile + i) * p.tile = p.tile * (p.offset / p.tile) + i * p.tile := by ring
  unfold Params.tileBegin
  by_cases h0 : i = 0
  · subst h0
    rw [if_pos rfl]
    simp only [Nat.cast_zero, Int.zero_mul, add_zero] at e ⊢
    rw [e]
    omega
  · have : p.tile ≤ i * p.tile := by
      have := Int.mul_le_mul_of_nonneg_right (show (1 : Int) ≤ i by omega) (Int.le_of_lt htp)
      omega
    rw [if_neg h0, if_neg (by omega), e]
    omega

theorem Params.Valid.tileStart_all : ((tileStart p.tileSizes p.ntn : Nat) : Int) = p.size := by
  rw [hp.tileStart_aux _ le_rfl, if_pos rfl]
  split
  · rename_i h
    have w := hp.wf
    have n0 := w.nrTiles_nonneg
    by_contra hc
    have : 0 < p.dist.size := by
      have h1 : 0 ≤ p.size := hp.1
      have h2 : p.dist.size = p.size := rfl
      omega
    have := (w.nrTiles_pos this).1
    unfold Params.ntn at h
    omega
  · rfl
end

theorem Ref.at_tile {p : Params} (hp : p.Valid) {o n : Int} (ho : 0 ≤ o) (hn : 0 ≤ n) (hon : o + n ≤ p.size) {t : Int} (h0 : 0 ≤ t)
    (h1 : t < (p.sub o n).dist.nrTiles) (hown : (p.sub o n).dist.rank_global_tile t = p.rank) :
    Ref.size p.dist o n ((p.sub o n).dist.local_tile_from_global_tile t) = (p.sub o n).dist.global_tile_size_of t ∧
    ∀ a, 0 ≤ a → a < (p.sub o n).dist.global_tile_size_of t → (0 ≤ (p.sub o n).tileBegin t + a ∧ (p.sub o n).tileBegin t + a < n) ∧
      p.owner (o + ((p.sub o n).tileBegin t + a)) = p.rank ∧
      Ref.base p.dist o n ((p.sub o n).dist.local_tile_from_global_tile t) + a = p.localPos (o + ((p.sub o n).tileBegin t + a)) := by
  have hs := hp.sub ho hn
  have g1 := C02_global_local_global hs h0 hown
  obtain ⟨ow, _, _, k1⟩ := C01_tile_owner hs h0 h1
  obtain ⟨k2, k3, _⟩ := k1 p.rank hp.2.2.2.2.2.1.1 hp.2.2.2.2.2.1.2
  have k4 := k3 (hown.symm.trans k2)
  have k5 : 0 ≤ (p.sub o n).dist.local_tile_from_global_tile t ∧ (p.sub o n).dist.local_tile_from_global_tile t < (p.sub o n).dist.localNrTiles := k4
  have i1 := Ref.inner hp ho hn hon k5.1 k5.2
  have z1 : Ref.size p.dist o n ((p.sub o n).dist.local_tile_from_global_tile t) = (p.sub o n).dist.global_tile_size_of t := by
    unfold Ref.size
    rw [hp.subBuild_eq ho hn, g1]
  refine ⟨z1, fun a a0 a1 => ?_⟩
  obtain ⟨x1, x2, x3, -⟩ := i1.2 a a0 (by omega)
  rw [g1] at x1 x2 x3
  exact ⟨x1, x2, x3⟩

/-- The part of a distribution that belongs to a reference. -/
def Params2.sub (P : Params2) (o n : Coord2) : Params2 := ⟨P.row.sub o.row n.row, P.col.sub o.col n.col⟩

theorem Params2.at_valid {P : Params2} (hr : P.row.Valid) (hc : P.col.Valid) {r : Coord2} (h : r ∈ P.ranks) :
    (P.at' .Row r).Valid ∧ (P.at' .Col r).Valid :=
  ⟨hr.onRank (Params2.mem_ranks.1 h .Row).1 (Params2.mem_ranks.1 h .Row).2, hc.onRank (Params2.mem_ranks.1 h .Col).1 (Params2.mem_ranks.1 h .Col).2⟩

/-- The tiles of a window: each from the store of its owner. -/
def refTiles (P : Params2) (o n : Coord2) (E : Coord2 → LocE K) : Tiles K := fun z =>
  let r : Coord2 := ⟨(P.sub o n).row.dist.rank_global_tile (z.1 : Nat), (P.sub o n).col.dist.rank_global_tile (z.2 : Nat)⟩
  Ref.tiles (P.on r) o n (E r) ⟨((P.sub o n).at' .Row r).dist.local_tile_from_global_tile (z.1 : Nat), ((P.sub o n).at' .Col r).dist.local_tile_from_global_tile (z.2 : Nat)⟩

section
variable {P : Params2} (hr : P.row.Valid) (hc : P.col.Valid) {o n : Coord2} (ho : 0 ≤ o.row ∧ 0 ≤ o.col) (hn : 0 ≤ n.row ∧ 0 ≤ n.col)
  (hon : o.row + n.row ≤ P.row.size ∧ o.col + n.col ≤ P.col.size)

omit hr hc ho hn hon in
theorem refTiles_holds (E : Coord2 → LocE K) (r : Coord2) (a b : Nat) : HoldsTiles (P.sub o n) a b r (refTiles P o n E) (Ref.tiles (P.on r) o n (E r)) := by
  intro i _ j _ oi oj
  unfold refTiles
  dsimp only
  rw [oi, oj]

include hr hc ho hn hon

theorem win_owner {i j : Nat} (hi : i < (P.sub o n).row.ntn) (hj : j < (P.sub o n).col.ntn) :
    (⟨(P.sub o n).row.dist.rank_global_tile i, (P.sub o n).col.dist.rank_global_tile j⟩ : Coord2) ∈ P.ranks := by
  have hs := hr.sub ho.1 hn.1
  have ht := hc.sub ho.2 hn.2
  refine Params2.mem_ranks.2 fun c => ?_
  cases c
  · exact hs.wf.cyc.rank_range (by omega)
  · exact ht.wf.cyc.rank_range (by omega)

theorem refTiles_size (E : Coord2 → LocE K) : Shaped (refTiles P o n E) (P.sub o n).row.tileSizes (P.sub o n).col.tileSizes (P.sub o n).row.ntn (P.sub o n).col.ntn := by
  intro i hi j hj
  have hG := win_owner hr hc ho hn hon hi hj
  unfold refTiles
  dsimp only
  set r : Coord2 := ⟨(P.sub o n).row.dist.rank_global_tile i, (P.sub o n).col.dist.rank_global_tile j⟩ with hrr
  obtain ⟨vr, vc⟩ := Params2.at_valid hr hc hG
  have sr := vr.sub ho.1 hn.1
  have sc := vc.sub ho.2 hn.2
  have g1 := C02_global_local_global sr (t := i) (by omega) (by rfl)
  have g2 := C02_global_local_global sc (t := j) (by omega) (by rfl)
  unfold Ref.tiles Ref.size Params.tileSizes
  dsimp only
  rw [show (P.on r).row.subBuild o.row n.row = ((P.at' .Row r).sub o.row n.row).dist from vr.subBuild_eq ho.1 hn.1,
    show (P.on r).col.subBuild o.col n.col = ((P.at' .Col r).sub o.col n.col).dist from vc.subBuild_eq ho.2 hn.2]
  constructor
  · exact congrArg (fun t => (((P.at' .Row r).sub o.row n.row).dist.global_tile_size_of t).toNat) g1
  · exact congrArg (fun t => (((P.at' .Col r).sub o.col n.col).dist.global_tile_size_of t).toNat) g2

theorem refTiles_elem {E : Coord2 → LocE K} {A : Nat → Nat → K} (hA : ∀ r ∈ P.ranks, HoldsLoc P r (E r) A) :
    HoldsOn (refTiles P o n E) (P.sub o n).row.tileSizes (P.sub o n).col.tileSizes (P.sub o n).row.ntn (P.sub o n).col.ntn
      (fun x y => A (o.row.toNat + x) (o.col.toNat + y)) fun _ _ => True := by
  intro i hi j hj a ha b hb _
  have hG := win_owner hr hc ho hn hon hi hj
  have hst : ((tileStart (P.sub o n).row.tileSizes i : Nat) : Int) = (P.sub o n).row.tileBegin i := (hr.sub ho.1 hn.1).tileStart_eq hi
  have hct : ((tileStart (P.sub o n).col.tileSizes j : Nat) : Int) = (P.sub o n).col.tileBegin j := (hc.sub ho.2 hn.2).tileStart_eq hj
  generalize hX : tileStart (P.sub o n).row.tileSizes i = X at hst ⊢
  generalize hY : tileStart (P.sub o n).col.tileSizes j = Y at hct ⊢
  obtain ⟨vr, vc⟩ := Params2.at_valid hr hc hG
  have i1 := Ref.at_tile vr ho.1 hn.1 hon.1 (t := i) (by omega) (by unfold Params.ntn at hi; exact (by omega : (i : Int) < (P.sub o n).row.dist.nrTiles)) rfl
  have i2 := Ref.at_tile vc ho.2 hn.2 hon.2 (t := j) (by omega) (by unfold Params.ntn at hj; exact (by omega : (j : Int) < (P.sub o n).col.dist.nrTiles)) rfl
  obtain ⟨⟨x0, x1⟩, x2, x3⟩ := i1.2 a (by omega) (by unfold Params.tileSizes at ha; exact (by omega : (a : Int) < (P.sub o n).row.dist.global_tile_size_of i))
  obtain ⟨⟨y0, y1⟩, y2, y3⟩ := i2.2 b (by omega) (by unfold Params.tileSizes at hb; exact (by omega : (b : Int) < (P.sub o n).col.dist.global_tile_size_of j))
  have cx : o.row + ((P.sub o n).row.tileBegin i + a) = ((o.row.toNat + (X + a) : Nat) : Int) := by omega
  have cy : o.col + ((P.sub o n).col.tileBegin j + b) = ((o.col.toNat + (Y + b) : Nat) : Int) := by omega
  have x3' : Ref.base (P.on ⟨(P.sub o n).row.dist.rank_global_tile i, (P.sub o n).col.dist.rank_global_tile j⟩).row o.row n.row
      (((P.sub o n).at' .Row ⟨(P.sub o n).row.dist.rank_global_tile i, (P.sub o n).col.dist.rank_global_tile j⟩).dist.local_tile_from_global_tile i) + a =
      P.row.localPos ((o.row.toNat + (X + a) : Nat) : Int) := by rw [← cx]; exact x3
  have y3' : Ref.base (P.on ⟨(P.sub o n).row.dist.rank_global_tile i, (P.sub o n).col.dist.rank_global_tile j⟩).col o.col n.col
      (((P.sub o n).at' .Col ⟨(P.sub o n).row.dist.rank_global_tile i, (P.sub o n).col.dist.rank_global_tile j⟩).dist.local_tile_from_global_tile j) + b =
      P.col.localPos ((o.col.toNat + (Y + b) : Nat) : Int) := by rw [← cy]; exact y3
  refine Eq.trans (congrArg₂ (E _) x3' y3') (hA _ hG _ _ ?_ ?_ ?_ ?_)
  · have h : (P.sub o n).row.tileBegin i + a < n.row := x1
    omega
  · have h : (P.sub o n).col.tileBegin j + b < n.col := y1
    omega
  · rw [← cx]; exact x2
  · rw [← cy]; exact y2
end
end DLAF
