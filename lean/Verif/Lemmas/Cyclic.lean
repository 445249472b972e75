import Verif.Model.UtilDist
import Mathlib.Tactic.Ring
import Mathlib.Tactic.Linarith
/- Closed forms of the 1D block-cyclic index functions. -/
namespace DLAF

theorem cdivmod_eq {a b q r : Int} (hq : 0 ≤ q) (h0 : 0 ≤ r) (h1 : r < b) (h : a = q * b + r) :
    cdiv a b = q ∧ cmod a b = r := by
  have hb : 0 < b := by omega
  have ha : 0 ≤ a := by
    have := Int.mul_nonneg hq (Int.le_of_lt hb); omega
  have := (Int.ediv_emod_unique (a := a) (r := r) (q := q) hb).2
    ⟨by rw [h]; ring, h0, h1⟩
  unfold cdiv cmod
  rw [Int.tdiv_eq_ediv_of_nonneg ha, Int.tmod_eq_emod_of_nonneg ha]
  exact this

theorem cdiv_eq {a b q r : Int} (hq : 0 ≤ q) (h0 : 0 ≤ r) (h1 : r < b) (h : a = q * b + r) :
    cdiv a b = q := (cdivmod_eq hq h0 h1 h).1
theorem cmod_eq {a b q r : Int} (hq : 0 ≤ q) (h0 : 0 ≤ r) (h1 : r < b) (h : a = q * b + r) :
    cmod a b = r := (cdivmod_eq hq h0 h1 h).2

theorem exists_divmod {a b : Int} (ha : 0 ≤ a) (hb : 0 < b) :
    ∃ q r, 0 ≤ q ∧ 0 ≤ r ∧ r < b ∧ a = q * b + r := by
  refine ⟨a / b, a % b, Int.ediv_nonneg ha (Int.le_of_lt hb), Int.emod_nonneg _ (by omega),
    Int.emod_lt_of_pos _ hb, ?_⟩
  have := Int.mul_ediv_add_emod a b
  rw [Int.mul_comm]; omega

/-- Valid parameters of the 1D cyclic functions (util_distribution.h preconditions). -/
structure Cyc (T G rank src off : Int) : Prop where
  T_pos : 0 < T
  G_pos : 0 < G
  rank_nonneg : 0 ≤ rank
  rank_lt : rank < G
  src_nonneg : 0 ≤ src
  src_lt : src < G
  off_nonneg : 0 ≤ off
  off_lt : off < T

/-- distance of `rank` from `src` going up cyclically -/
def rts (G rank src : Int) : Int := if src ≤ rank then rank - src else rank + G - src
/-- owner of a block at cyclic distance `s` from the source rank -/
def own (G src s : Int) : Int := if s + src < G then s + src else s + src - G

section
variable {T G rank src off : Int} (c : Cyc T G rank src off)
include c

theorem Cyc.rts_eq : cmod (rank + G - src) G = rts G rank src := by
  obtain ⟨_, _, _, _, _, _, _, _⟩ := c
  unfold rts
  split
  · apply cmod_eq (q := 1) <;> omega
  · apply cmod_eq (q := 0) <;> omega

theorem Cyc.rts_nonneg : 0 ≤ rts G rank src := by
  obtain ⟨_, _, _, _, _, _, _, _⟩ := c
  unfold rts; split <;> omega

theorem Cyc.rts_lt : rts G rank src < G := by
  obtain ⟨_, _, _, _, _, _, _, _⟩ := c
  unfold rts; split <;> omega

theorem Cyc.rts_eq_zero : rts G rank src = 0 ↔ rank = src := by
  obtain ⟨_, _, _, _, _, _, _, _⟩ := c
  unfold rts; split <;> omega

theorem Cyc.own_iff {s : Int} (h0 : 0 ≤ s) (h1 : s < G) :
    rank = own G src s ↔ rts G rank src = s := by
  obtain ⟨_, _, _, _, _, _, _, _⟩ := c
  unfold rts own; split <;> split <;> omega

/-- Decomposition of a tile position into (local block, cyclic distance, tile in block). -/
theorem Cyc.decomp {x : Int} (hx : 0 ≤ x) :
    ∃ L s r, 0 ≤ L ∧ 0 ≤ s ∧ s < G ∧ 0 ≤ r ∧ r < T ∧ x = (L * G + s) * T + r := by
  obtain ⟨q, r, hq, hr, hr', rfl⟩ := exists_divmod hx c.T_pos
  obtain ⟨L, s, hL, hs, hs', rfl⟩ := exists_divmod hq c.G_pos
  exact ⟨L, s, r, hL, hs, hs', hr, hr', rfl⟩

variable {L s r gt : Int}

theorem Cyc.block_nonneg (hL : 0 ≤ L) (hs : 0 ≤ s) : 0 ≤ L * G + s := by
  have := Int.mul_nonneg hL (Int.le_of_lt c.G_pos); omega

theorem Cyc.rank_global_tile_eq (hL : 0 ≤ L) (hs : 0 ≤ s) (hs' : s < G) (hr : 0 ≤ r) (hr' : r < T)
    (h : gt + off = (L * G + s) * T + r) :
    util.rank_global_tile gt T G src off = own G src s := by
  have hb := c.block_nonneg hL hs
  simp only [util.rank_global_tile]
  rw [cdiv_eq hb hr hr' h]
  obtain ⟨_, _, _, _, _, _, _, _⟩ := c
  unfold own
  split
  · apply cmod_eq hL <;> first | omega | ring
  · apply cmod_eq (q := L + 1) <;> first | omega | ring

theorem Cyc.next_local_eq (hL : 0 ≤ L) (hs : 0 ≤ s) (hs' : s < G) (hr : 0 ≤ r) (hr' : r < T)
    (h : gt + off = (L * G + s) * T + r) :
    util.next_local_tile_from_global_tile gt T G rank src off =
      (if rts G rank src = s then L * T + r
       else if rts G rank src < s then (L + 1) * T else L * T)
      - (if rank = src then off else 0) := by
  have hb := c.block_nonneg hL hs
  simp only [util.next_local_tile_from_global_tile]
  rw [c.rts_eq, cdiv_eq hb hr hr' h, cmod_eq hL hs hs' rfl, cdiv_eq hL hs hs' rfl,
    cmod_eq hb hr hr' h]
  split
  · rfl
  · split <;> rfl

theorem Cyc.local_tile_eq (hL : 0 ≤ L) (hs : 0 ≤ s) (hs' : s < G) (hr : 0 ≤ r) (hr' : r < T)
    (h : gt + off = (L * G + s) * T + r) :
    util.local_tile_from_global_tile gt T G rank src off =
      if rts G rank src = s then L * T + r - (if rank = src then off else 0) else -1 := by
  have hb := c.block_nonneg hL hs
  simp only [util.local_tile_from_global_tile]
  rw [c.rank_global_tile_eq hL hs hs' hr hr' h, cdiv_eq hb hr hr' h, cdiv_eq hL hs hs' rfl,
    cmod_eq hb hr hr' h]
  simp only [c.own_iff hs hs']

theorem Cyc.global_tile_eq {lt : Int} (hL : 0 ≤ L) (hr : 0 ≤ r) (hr' : r < T)
    (h : lt + (if rank = src then off else 0) = L * T + r) :
    util.global_tile_from_local_tile lt T G rank src off =
      (L * G + rts G rank src) * T + r - off := by
  simp only [util.global_tile_from_local_tile]
  have h2 : (if rank = src then lt + off else lt) = L * T + r := by
    split at h <;> simp_all
  rw [h2, c.rts_eq, cdiv_eq hL hr hr' rfl, cmod_eq hL hr hr' rfl]
  ring

/-- next_local at 0 -/
theorem Cyc.next_local_zero : util.next_local_tile_from_global_tile 0 T G rank src off = 0 := by
  have h := c.next_local_eq (L := 0) (s := 0) (r := off) (gt := 0) (by omega) (by omega)
    c.G_pos c.off_nonneg c.off_lt (by ring)
  rw [h]
  have := c.rts_eq_zero
  have := c.rts_nonneg
  split_ifs <;> first | omega | (exfalso; omega) | simp_all

/-- next_local counts: one step -/
theorem Cyc.next_local_succ {t : Int} (ht : 0 ≤ t) :
    util.next_local_tile_from_global_tile (t + 1) T G rank src off =
      util.next_local_tile_from_global_tile t T G rank src off +
      (if rank = util.rank_global_tile t T G src off then 1 else 0) := by
  obtain ⟨L, s, r, hL, hs, hs', hr, hr', h⟩ := c.decomp (x := t + off)
    (by have := c.off_nonneg; omega)
  rw [c.rank_global_tile_eq hL hs hs' hr hr' h, c.next_local_eq hL hs hs' hr hr' h]
  simp only [c.own_iff hs hs']
  have r0 := c.rts_nonneg
  have r1 := c.rts_lt
  by_cases h1 : r + 1 < T
  · rw [c.next_local_eq hL hs hs' (r := r + 1) (by omega) h1 (by omega)]
    split_ifs <;> omega
  · have hr1 : T = r + 1 := by omega
    by_cases h2 : s + 1 < G
    · rw [c.next_local_eq hL (s := s + 1) (by omega) h2 (r := 0) (by omega) c.T_pos
        (by rw [show t + 1 + off = t + off + 1 by ring, h, hr1]; ring)]
      have e : (L + 1) * T = L * T + r + 1 := by rw [hr1]; ring
      split_ifs <;> omega
    · have hs1 : G = s + 1 := by omega
      rw [c.next_local_eq (L := L + 1) (by omega) (s := 0) (by omega) c.G_pos (r := 0) (by omega)
        c.T_pos (by rw [show t + 1 + off = t + off + 1 by ring, h, hr1, hs1]; ring)]
      have e : (L + 1) * T = L * T + r + 1 := by rw [hr1]; ring
      split_ifs <;> omega

theorem Cyc.local_eq_next {t : Int} (ht : 0 ≤ t)
    (ho : rank = util.rank_global_tile t T G src off) :
    util.local_tile_from_global_tile t T G rank src off =
      util.next_local_tile_from_global_tile t T G rank src off := by
  obtain ⟨L, s, r, hL, hs, hs', hr, hr', h⟩ := c.decomp (x := t + off)
    (by have := c.off_nonneg; omega)
  rw [c.rank_global_tile_eq hL hs hs' hr hr' h, c.own_iff hs hs'] at ho
  rw [c.local_tile_eq hL hs hs' hr hr' h, c.next_local_eq hL hs hs' hr hr' h]
  simp [ho]

theorem Cyc.local_ne {t : Int} (ho : rank ≠ util.rank_global_tile t T G src off) :
    util.local_tile_from_global_tile t T G rank src off = -1 := by
  simp [util.local_tile_from_global_tile, ho]

theorem Cyc.local_nonneg_iff {t : Int} (ht : 0 ≤ t) :
    0 ≤ util.local_tile_from_global_tile t T G rank src off ↔
      rank = util.rank_global_tile t T G src off := by
  constructor
  · intro h
    by_contra ho
    rw [c.local_ne ho] at h; omega
  · intro ho
    obtain ⟨L, s, r, hL, hs, hs', hr, hr', h⟩ := c.decomp (x := t + off)
      (by have := c.off_nonneg; omega)
    rw [c.rank_global_tile_eq hL hs hs' hr hr' h, c.own_iff hs hs'] at ho
    rw [c.local_tile_eq hL hs hs' hr hr' h, if_pos ho]
    split
    · rename_i hrs
      have h0 : s = 0 := by rw [← ho]; exact c.rts_eq_zero.2 hrs
      subst h0
      by_cases hL0 : L = 0
      · subst hL0; simp at h ⊢; omega
      · have := Int.mul_le_mul_of_nonneg_right (show 1 ≤ L by omega) (Int.le_of_lt c.T_pos)
        have := c.off_lt; omega
    · have := Int.mul_nonneg hL (Int.le_of_lt c.T_pos); omega

/-- local → global → local -/
theorem Cyc.global_local {lt : Int} (hlt : 0 ≤ lt) :
    0 ≤ util.global_tile_from_local_tile lt T G rank src off ∧
    util.rank_global_tile (util.global_tile_from_local_tile lt T G rank src off) T G src off = rank ∧
    util.local_tile_from_global_tile (util.global_tile_from_local_tile lt T G rank src off)
      T G rank src off = lt := by
  have hx : 0 ≤ lt + (if rank = src then off else 0) := by
    have := c.off_nonneg; split <;> omega
  obtain ⟨L, r, hL, hr, hr', h⟩ := exists_divmod hx c.T_pos
  have hg := c.global_tile_eq hL hr hr' h
  have hd : util.global_tile_from_local_tile lt T G rank src off + off =
      (L * G + rts G rank src) * T + r := by rw [hg]; ring
  refine ⟨?_, ?_, ?_⟩
  · rw [hg]
    by_cases hrs : rank = src
    · have h0 : rts G rank src = 0 := c.rts_eq_zero.2 hrs
      rw [if_pos hrs] at h
      rw [h0]
      have : L * T ≤ (L * G + 0) * T := by
        have : L * 1 ≤ L * G := Int.mul_le_mul_of_nonneg_left (by have := c.G_pos; omega) hL
        apply Int.mul_le_mul_of_nonneg_right _ (Int.le_of_lt c.T_pos)
        omega
      omega
    · have h0 : 0 < rts G rank src := by
        have := c.rts_nonneg
        have : rts G rank src ≠ 0 := fun h => hrs (c.rts_eq_zero.1 h)
        omega
      have : 1 * T ≤ (L * G + rts G rank src) * T := by
        apply Int.mul_le_mul_of_nonneg_right _ (Int.le_of_lt c.T_pos)
        have := Int.mul_nonneg hL (Int.le_of_lt c.G_pos); omega
      have := c.off_lt; omega
  · rw [c.rank_global_tile_eq hL c.rts_nonneg c.rts_lt hr hr' hd]
    exact ((c.own_iff c.rts_nonneg c.rts_lt).2 rfl).symm
  · rw [c.local_tile_eq hL c.rts_nonneg c.rts_lt hr hr' hd, if_pos rfl]
    omega

/-- global → local → global -/
theorem Cyc.local_global {t : Int} (ht : 0 ≤ t) (ho : rank = util.rank_global_tile t T G src off) :
    util.global_tile_from_local_tile (util.local_tile_from_global_tile t T G rank src off)
      T G rank src off = t := by
  obtain ⟨L, s, r, hL, hs, hs', hr, hr', h⟩ := c.decomp (x := t + off)
    (by have := c.off_nonneg; omega)
  rw [c.rank_global_tile_eq hL hs hs' hr hr' h, c.own_iff hs hs'] at ho
  rw [c.local_tile_eq hL hs hs' hr hr' h, if_pos ho,
    c.global_tile_eq (L := L) (r := r) hL hr hr' (by omega), ho]
  omega

theorem Cyc.rank_range {t : Int} (ht : 0 ≤ t) :
    0 ≤ util.rank_global_tile t T G src off ∧ util.rank_global_tile t T G src off < G := by
  obtain ⟨L, s, r, hL, hs, hs', hr, hr', h⟩ := c.decomp (x := t + off)
    (by have := c.off_nonneg; omega)
  rw [c.rank_global_tile_eq hL hs hs' hr hr' h]
  obtain ⟨_, _, _, _, _, _, _, _⟩ := c
  unfold own; split <;> omega

end

/-- Block-cyclic owner in closed form. -/
theorem rank_global_tile_eq_mod {T G src off t : Int} (hT : 0 < T) (hs : 0 ≤ src)
    (ho : 0 ≤ off) (ht : 0 ≤ t) :
    util.rank_global_tile t T G src off = ((t + off) / T + src) % G := by
  unfold util.rank_global_tile cdiv cmod
  rw [Int.tdiv_eq_ediv_of_nonneg (by omega)]
  have : 0 ≤ (t + off) / T := Int.ediv_nonneg (by omega) (by omega)
  exact Int.tmod_eq_emod_of_nonneg (by omega)

end DLAF
