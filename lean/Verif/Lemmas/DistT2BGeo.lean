import Verif.Lemmas.DistT2BBlk
import Verif.Lemmas.DistRotGeo
/- Indices in the distributed back-transformation from tridiagonal to band form. -/
namespace DLAF
namespace DistT2B

/-- `mat_hh` with the distribution `P` and `mat_e` with the distribution `⟨P.row, cc⟩`; a tile has `t` band widths. -/
structure Geo (P : Params2) (cc : Params) (n mb m nbe b t : Nat) : Prop where
  row : Ax P.row n mb
  col : Ax P.col n mb
  ecol : Ax cc m nbe
  grid : cc.grid = P.col.grid
  hb : 2 ≤ b
  hmb : mb = t * b

section
variable {P : Params2} {cc : Params} {n mb m nbe b t : Nat} (G : Geo P cc n mb m nbe b t)

/-- The distribution of `mat_e`. -/
abbrev PE (P : Params2) (cc : Params) : Params2 := ⟨P.row, cc⟩

/-- The process row of tile row `I` of `mat_e_rt`. -/
def own (P : Params2) (t I : Nat) : Int := P.row.dist.rank_global_tile ((I / t : Nat) : Int)

/-- The process column of the reflectors of block column `J`. -/
def ownC (P : Params2) (t J : Nat) : Int := P.col.dist.rank_global_tile ((J / t : Nat) : Int)

include G

theorem Geo.b_pos : 0 < b := by have := G.hb; omega

theorem Geo.t_pos : 0 < t := by
  have h1 := G.row.nb_pos
  have h2 := G.hmb
  rcases Nat.eq_zero_or_pos t with h | h
  · rw [h, Nat.zero_mul] at h2; omega
  · exact h

theorem Geo.div (I : Nat) : I * b / mb = I / t := by
  rw [G.hmb, Nat.mul_div_mul_right _ _ G.b_pos]

theorem Geo.mod (I : Nat) : I * b % mb = I % t * b := by
  rw [G.hmb, Nat.mul_mod_mul_right]

theorem Geo.split (I : Nat) : I / t * mb + I % t * b = I * b := by
  rw [G.hmb, ← Nat.mul_assoc, ← Nat.add_mul, Nat.div_add_mod']

theorem Geo.fits (I : Nat) : I % t * b + b ≤ mb := by
  have h := Nat.mod_lt I G.t_pos
  have : (I % t + 1) * b ≤ t * b := Nat.mul_le_mul_right _ h
  rw [Nat.add_mul, Nat.one_mul] at this
  rw [G.hmb]
  exact this

theorem Geo.rowAx {r : Coord2} (hr : r ∈ P.ranks) : Ax (P.row.onRank r.row) n mb :=
  G.row.onRank (Params2.mem_ranks.1 hr .Row).1 (Params2.mem_ranks.1 hr .Row).2
theorem Geo.colAx {r : Coord2} (hr : r ∈ P.ranks) : Ax (P.col.onRank r.col) n mb :=
  G.col.onRank (Params2.mem_ranks.1 hr .Col).1 (Params2.mem_ranks.1 hr .Col).2
theorem Geo.ecolAx {r : Coord2} (hr : r ∈ P.ranks) : Ax (cc.onRank r.col) m nbe :=
  G.ecol.onRank (Params2.mem_ranks.1 hr .Col).1 (by rw [G.grid]; exact (Params2.mem_ranks.1 hr .Col).2)

theorem Geo.eRanks {r : Coord2} : r ∈ (PE P cc).ranks ↔ r ∈ P.ranks := by
  rw [Params2.mem_ranks, Params2.mem_ranks]
  constructor
  · intro h c
    cases c
    · exact h .Row
    · have := h .Col
      refine ⟨this.1, ?_⟩
      show _ < P.col.grid
      rw [← G.grid]
      exact this.2
  · intro h c
    cases c
    · exact h .Row
    · have := h .Col
      refine ⟨this.1, ?_⟩
      show _ < cc.grid
      rw [G.grid]
      exact this.2

theorem Geo.own_range (I : Nat) : 0 ≤ own P t I ∧ own P t I < P.row.grid := G.row.plain.valid.wf.cyc.rank_range (Int.natCast_nonneg _)
theorem Geo.ownC_range (J : Nat) : 0 ≤ ownC P t J ∧ ownC P t J < P.col.grid := G.col.plain.valid.wf.cyc.rank_range (Int.natCast_nonneg _)

section
variable {r : Coord2} (hr : r ∈ P.ranks)
include hr

theorem Geo.tileRow (i : Nat) : tileRow b (P.on r) i = ((i / t : Nat) : Int) := by
  show (P.row.onRank r.row).dist.global_tile_from_global_element _ = _
  rw [(G.rowAx hr).gt, G.div]

theorem Geo.tileCol (j : Nat) : tileCol b (P.on r) j = ((j / t : Nat) : Int) := by
  show (P.col.onRank r.col).dist.global_tile_from_global_element _ = _
  rw [(G.colAx hr).gt, G.div]

theorem Geo.rankRow (i : Nat) : rankRow b (P.on r) i = own P t i := by
  unfold DistT2B.rankRow own
  rw [G.tileRow hr]
  rfl

theorem Geo.rankCol (j : Nat) : rankCol b (P.on r) j = ownC P t j := by
  unfold DistT2B.rankCol ownC
  rw [G.tileCol hr]
  rfl

theorem Geo.eRank (I : Nat) : eRank b ((PE P cc).on r) I = own P t I := by
  unfold DistT2B.eRank own
  have e : ((PE P cc).on r).row = (P.row.onRank r.row).dist := rfl
  rw [e, (G.rowAx hr).gt, G.div]
  rfl

theorem Geo.succ (i : Nat) : (i + 1) / t = i / t ∨ (i + 1) / t = i / t + 1 := by
  have h := Nat.succ_div (a := i) (b := t)
  split at h <;> omega

/-- If the next tile row is on another process row, it is the partner's. -/
theorem Geo.partner (i : Nat) (h : own P t i ≠ own P t (i + 1)) : partner b (P.on r) i = own P t (i + 1) ∧ (i + 1) / t = i / t + 1 := by
  have e : (i + 1) / t = i / t + 1 := by
    rcases Geo.succ G hr i with h1 | h1
    · exact absurd (by unfold own; rw [h1]) h
    · exact h1
  refine ⟨?_, e⟩
  unfold DistT2B.partner
  rw [G.rankRow hr]
  have e2 : (P.on r).row.grid = P.row.grid := rfl
  have g0 := (G.own_range i)
  rw [e2]
  show Int.tmod _ _ = _
  rw [Int.tmod_eq_emod_of_nonneg (by omega)]
  unfold own
  rw [e, G.row.plain.rank_eq (Int.natCast_nonneg _), G.row.plain.rank_eq (Int.natCast_nonneg _)]
  push_cast
  rw [Int.emod_add_emod]
  congr 1
  omega

end

theorem Geo.acrossTiles {i : Nat} (hi : i * b < n) : acrossTiles n b i = true ↔ (i + 1) * b < n := by
  unfold DistT2B.acrossTiles
  rw [decide_eq_true_iff, Nat.add_mul, Nat.one_mul]
  have hb := G.b_pos
  have h1 : i < (n + b - 1) / b := (lt_ceil hb).2 hi
  have h2 : i + 1 < (n + b - 1) / b ↔ (i + 1) * b < n := lt_ceil hb
  rw [Nat.add_mul, Nat.one_mul] at h2
  omega

section
variable {r : Coord2} (hr : r ∈ P.ranks)
include hr

theorem Geo.acrossRanks {i : Nat} (hi : i * b < n) : acrossRanks n b ((PE P cc).on r) i = true ↔ (i + 1) * b < n ∧ own P t i ≠ own P t (i + 1) := by
  unfold DistT2B.acrossRanks
  rw [Bool.and_eq_true, G.acrossTiles hi, decide_eq_true_iff, G.eRank hr, G.eRank hr]

theorem Geo.involved {i : Nat} (hi : i * b < n) : involved n b (P.on r) ((PE P cc).on r) i = true ↔
    r.row = own P t i ∨ ((i + 1) * b < n ∧ r.row = own P t (i + 1)) := by
  unfold DistT2B.involved
  rw [Bool.or_eq_true, Bool.and_eq_true, decide_eq_true_iff, decide_eq_true_iff, G.rankRow hr, G.acrossRanks hr hi]
  have e : (P.on r).row.rank = r.row := rfl
  rw [e]
  by_cases h : own P t i = own P t (i + 1)
  · rw [← h]; tauto
  · rw [(G.partner hr i h).1]; tauto

theorem Geo.slot {i : Nat} (hi : i * b < n) (h : r.row = own P t i ∨ ((i + 1) * b < n ∧ r.row = own P t (i + 1))) : ∃ q, slot b (P.on r) i = some q := by
  have a1 := G.rowAx hr
  have hb := G.b_pos
  have ht := G.t_pos
  have e1 : (P.on r).row.rank = r.row := rfl
  have e2 : (P.on r).row.tileSize = ((t * b : Nat) : Int) := by rw [← G.hmb]; exact a1.tile
  have e3 : cdiv ((t * b : Nat) : Int) b = t := by
    show Int.tdiv _ _ = _
    rw [Int.tdiv_eq_ediv_of_nonneg (Int.natCast_nonneg _), ← Int.natCast_ediv, Nat.mul_div_cancel _ hb]
  have hws : wsPerBlock b (P.on r) = (((t + 1) / 2 + 1 : Nat) : Int) := by
    unfold wsPerBlock
    rw [e2, e3]
    have : cdiv ((t : Int) + 1) 2 = (((t + 1) / 2 : Nat) : Int) := by
      show Int.tdiv _ _ = _
      rw [Int.tdiv_eq_ediv_of_nonneg (by omega)]
      omega
    rw [this]
    push_cast; rfl
  have hwt : wsTiles b (P.on r) = max 1 ((P.row.onRank r.row).dist.localNrTiles * (((t + 1) / 2 + 1 : Nat) : Int)) := by
    unfold wsTiles
    rw [e2, e3]
    have : ceilDiv (t : Int) 2 = (((t + 1) / 2 : Nat) : Int) := by
      unfold ceilDiv
      show Int.tdiv _ _ = _
      rw [Int.tdiv_eq_ediv_of_nonneg (by omega)]
      omega
    rw [this]
    push_cast
    rfl
  have bound : ∀ l c : Int, 0 ≤ l → l < (P.row.onRank r.row).dist.localNrTiles → 0 ≤ c → c < (((t + 1) / 2 + 1 : Nat) : Int) →
      0 ≤ l * (((t + 1) / 2 + 1 : Nat) : Int) + c ∧ l * (((t + 1) / 2 + 1 : Nat) : Int) + c < wsTiles b (P.on r) := by
    intro l c h0 h1 h2 h3
    rw [hwt]
    generalize (((t + 1) / 2 + 1 : Nat) : Int) = W at *
    have k1 : 0 ≤ l * W := mul_nonneg h0 (by omega)
    have k2 : (l + 1) * W ≤ (P.row.onRank r.row).dist.localNrTiles * W := mul_le_mul_of_nonneg_right (by omega) (by omega)
    rw [add_mul, one_mul] at k2
    omega
  have nt := a1.nt
  unfold DistT2B.slot
  rw [G.rankRow hr, G.tileRow hr, hws, e1]
  by_cases h1 : r.row = own P t i
  · rw [if_pos h1, e2, e3]
    have e4 : cmod (i : Int) (t : Int) = ((i % t : Nat) : Int) := by
      show Int.tmod _ _ = _
      rw [Int.tmod_eq_emod_of_nonneg (by omega)]
      push_cast; rfl
    have e5 : cdiv ((i % t : Nat) : Int) 2 = ((i % t / 2 : Nat) : Int) := by
      show Int.tdiv _ _ = _
      rw [Int.tdiv_eq_ediv_of_nonneg (by omega)]
      push_cast; rfl
    have hmod := Nat.mod_lt i ht
    rw [e4, e5]
    dsimp only
    have hlt : (1 : Int) + ((i % t / 2 : Nat) : Int) < (((t + 1) / 2 + 1 : Nat) : Int) := by omega
    rw [if_pos hlt, Option.bind_some]
    have hti : (((i / t : Nat) : Int)) < (P.row.onRank r.row).dist.nrTiles := by
      rw [nt]
      have := (a1.lt_nt (i / t)).2 (by have := G.split i; omega)
      omega
    have lb := a1.plain.lc_bounds (Int.natCast_nonneg (i / t)) hti h1.symm
    have b1 : 0 ≤ (P.on r).row.local_tile_from_global_tile ((i / t : Nat) : Int) * (((t + 1) / 2 + 1 : Nat) : Int) + (1 + ((i % t / 2 : Nat) : Int)) ∧
        (P.on r).row.local_tile_from_global_tile ((i / t : Nat) : Int) * (((t + 1) / 2 + 1 : Nat) : Int) + (1 + ((i % t / 2 : Nat) : Int)) < wsTiles b (P.on r) :=
      bound _ _ lb.1 lb.2 (by omega) hlt
    rw [if_pos b1]
    exact ⟨_, rfl⟩
  · rw [if_neg h1]
    have h2 := h.resolve_left h1
    have hne : own P t i ≠ own P t (i + 1) := fun z => h1 (by rw [z]; exact h2.2)
    have hsucc := (G.partner hr i hne).2
    have hti : (((i + 1) / t : Nat) : Int) < (P.row.onRank r.row).dist.nrTiles := by
      rw [nt]
      have := (a1.lt_nt ((i + 1) / t)).2 (by have := G.split (i + 1); omega)
      omega
    have lb := a1.plain.lc_bounds (Int.natCast_nonneg ((i + 1) / t)) hti h2.2.symm
    by_cases h3 : (P.on r).row.localNrTiles = 0 ∨ (P.on r).col.localNrTiles = 0
    · rw [if_pos h3, Option.bind_some]
      have b0 := bound 0 0 (by omega) (by omega) (by omega) (by omega)
      rw [zero_mul, add_zero] at b0
      rw [if_pos b0]
      exact ⟨_, rfl⟩
    · rw [if_neg h3, Option.bind_some]
      have e6 : ((i / t : Nat) : Int) + 1 = (((i + 1) / t : Nat) : Int) := by rw [hsucc]; push_cast; rfl
      rw [e6]
      have b0 := bound ((P.row.onRank r.row).lc (((i + 1) / t : Nat) : Int)) 0 lb.1 lb.2 (by omega) (by omega)
      rw [add_zero] at b0
      have b1 : 0 ≤ (P.on r).row.local_tile_from_global_tile (((i + 1) / t : Nat) : Int) * (((t + 1) / 2 + 1 : Nat) : Int) ∧
          (P.on r).row.local_tile_from_global_tile (((i + 1) / t : Nat) : Int) * (((t + 1) / 2 + 1 : Nat) : Int) < wsTiles b (P.on r) := b0
      rw [if_pos b1]
      exact ⟨_, rfl⟩

end

end
end DistT2B
end DLAF
