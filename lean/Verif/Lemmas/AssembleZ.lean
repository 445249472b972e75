import Verif.Model.DistAssembleZ
import Verif.Spec.DistMultEvecs
import Verif.Lemmas.DistBtTasks
import Verif.Lemmas.Redistribute
import Verif.Lemmas.DistRank1Run
import Verif.Model.DivConq
/- C70: the phases of the assembly of the rank-one vector. -/
namespace DLAF
namespace DistZ

section
variable {p : Params} {n nb : Nat} (h : Ax p n nb)
include h

theorem Ax.tile_begin {t : Nat} (ht : t * nb < n) : p.dist.global_element_from_global_tile_and_tile_element t 0 = ((t * nb : Nat) : Int) := by
  have hp := h.nb_pos
  have hs := h.size
  have := (C03_global_split h.plain.valid (e := ((t * nb : Nat) : Int)) (by omega) (by omega)).1
  rw [h.gt, h.te, Nat.mul_div_cancel _ hp, Nat.mul_mod_left] at this
  exact this

theorem Ax.tile_len {t : Nat} (ht : t * nb < n) : p.dist.global_tile_size_of t = ((min nb (n - t * nb) : Nat) : Int) := by
  rw [h.plain.tsz, h.size, h.tile]
  have : ((t : Nat) : Int) * (nb : Int) = ((t * nb : Nat) : Int) := by push_cast; rfl
  rw [this]
  omega

theorem Ax.owner_tile (e : Nat) : p.dist.rank_global_tile ((e / nb : Nat) : Int) = p.owner e := by
  rw [← h.plain.valid.owner_eq (e := (e : Int)) (by omega), ← h.gt]
  rfl

theorem Ax.pos {e : Nat} (he : e < n) (ho : p.owner e = p.rank) :
    p.localPos e = p.dist.local_element_from_local_tile_and_tile_element (p.dist.local_tile_from_global_tile ((e / nb : Nat) : Int)) ((e % nb : Nat) : Int) := by
  have hs := h.size
  have := (h.plain.valid.owned_elem (e := (e : Int)) (by omega) (by omega) ho).2.2.2.2.1
  rw [h.plain.valid.localPos_here (by omega) ho, h.gt, h.te] at this
  exact this
end

theorem loc_add (d : Dist1) (lt te : Int) : d.local_element_from_local_tile_and_tile_element lt te = d.local_element_from_local_tile_and_tile_element lt 0 + te := by
  unfold Dist1.local_element_from_local_tile_and_tile_element util.element_from_tile_and_tile_element
  omega

theorem div_iff {nb n t e : Nat} (hp : 0 < nb) : (t * nb ≤ e ∧ e < t * nb + min nb (n - t * nb)) ↔ e < n ∧ e / nb = t := by
  have h1 := Nat.div_add_mod e nb
  have h2 := Nat.mod_lt e hp
  constructor
  · rintro ⟨a, b⟩
    refine ⟨by omega, ?_⟩
    rw [Nat.div_eq_iff hp]
    have : (t + 1) * nb = t * nb + nb := by rw [Nat.add_mul, Nat.one_mul]
    omega
  · rintro ⟨a, rfl⟩
    rw [Nat.mul_comm] at h1
    omega

variable {P : Params2} {n nb : Nat} (hr : Ax P.row n nb) (hc : Ax P.col n nb) {ib isr : Nat} {A : Nat → Nat → ℝ} {rho : ℝ} {st0 : Coord2 → DZSt}

/-- The state of a process after the tiles before `t`. -/
noncomputable def stZ (nb n ib isr : Nat) (A : Nat → Nat → ℝ) (rho : ℝ) (st0 : Coord2 → DZSt) (t : Nat) (r : Coord2) : DZSt :=
  { st0 r with z := assembleZ nb n ib isr t rho A (st0 r).z }

include hr hc

/-- The tile the owner computes. -/
theorem assemble_ok {t : Nat} (hb : ib ≤ t) (ht : t * nb < n) (h0 : 0 < isr) (h1 : isr * nb < n) {r : Coord2} (hrr : r ∈ P.ranks)
    (how : zOwner (P.on r) isr t = r) (hA : HoldsLoc P r (st0 r).e0 A) (hrho : (st0 r).rho = rho) :
    assembleTile (P.on r) isr t (stZ nb n ib isr A rho st0 t r) = stZ nb n ib isr A rho st0 (t + 1) r := by
  have hp := hr.nb_pos
  have mr := Params2.mem_ranks.1 hrr .Row
  have mc := Params2.mem_ranks.1 hrr .Col
  have vr : Ax (P.row.onRank r.row) n nb := hr.onRank mr.1 mr.2
  have vc : Ax (P.col.onRank r.col) n nb := hc.onRank mc.1 mc.2
  have oc : (P.col.onRank r.col).dist.rank_global_tile (t : Int) = r.col := congrArg Coord2.col how
  have zb : zBegin (P.on r) t = t * nb := by
    have := Ax.tile_begin vc ht
    unfold zBegin
    show ((P.col.onRank r.col).dist.global_element_from_global_tile_and_tile_element t 0).toNat = _
    omega
  have zl : zLen (P.on r) t = min nb (n - t * nb) := by
    have := Ax.tile_len vc ht
    unfold zLen
    show ((P.col.onRank r.col).dist.global_tile_size_of t).toNat = _
    omega
  -- the row
  obtain ⟨R, hR⟩ : ∃ R, R = if t < isr then isr * nb - 1 else isr * nb := ⟨_, rfl⟩
  have hpos : nb ≤ isr * nb := Nat.le_mul_of_pos_left _ h0
  have hmul : (isr - 1) * nb = isr * nb - nb := by rw [Nat.sub_mul, Nat.one_mul]
  have hRn : R < n := by rw [hR]; split <;> omega
  have hRt : R / nb = if t < isr then isr - 1 else isr := by
    rw [hR]
    split
    · exact ((div_iff (n := n) hp).1 ⟨by omega, by omega⟩).2
    · exact Nat.mul_div_cancel _ hp
  have hRm : R % nb = if t < isr then nb - 1 else 0 := by
    have h1 := Nat.div_add_mod R nb
    rw [hRt, Nat.mul_comm] at h1
    split
    · rename_i h
      rw [if_pos h] at h1 hR
      omega
    · rename_i h
      rw [if_neg h] at h1 hR
      omega
  have hev : evecsRow isr t = ((R / nb : Nat) : Int) := by
    rw [hRt]
    unfold evecsRow
    split <;> split <;> omega
  have orow : P.row.owner R = r.row := by
    have : (P.row.onRank r.row).dist.rank_global_tile (evecsRow isr t) = r.row := congrArg Coord2.row how
    rw [hev, Ax.owner_tile vr] at this
    exact this
  have px := Ax.pos vr hRn orow
  have hsz : (P.on r).row.global_tile_size_of (evecsRow isr t) - 1 = ((nb - 1 : Nat) : Int) ∨ ¬ t < isr := by
    by_cases h : t < isr
    · left
      show (P.row.onRank r.row).dist.global_tile_size_of (evecsRow isr t) - 1 = _
      rw [hev, Ax.tile_len vr (by have := Nat.div_mul_le_self R nb; omega), hRt, if_pos h]
      omega
    · exact .inr h
  have hx : (P.on r).row.local_element_from_local_tile_and_tile_element ((P.on r).row.local_tile_from_global_tile (evecsRow isr t))
      (if (t : Int) < isr then (P.on r).row.global_tile_size_of (evecsRow isr t) - 1 else 0) = P.row.localPos R := by
    have e : (if (t : Int) < isr then (P.on r).row.global_tile_size_of (evecsRow isr t) - 1 else 0) = ((R % nb : Nat) : Int) := by
      rw [hRm]
      by_cases h : t < isr
      · rw [if_pos (by omega), if_pos h]
        exact hsz.resolve_right (fun z => z h)
      · rw [if_neg (by omega), if_neg h]
        rfl
    rw [e, hev]
    exact px.symm
  unfold assembleTile stZ
  dsimp only
  rw [hx, zb, zl]
  congr 1
  funext e
  rw [hrho]
  by_cases hw : t * nb ≤ e ∧ e < t * nb + min nb (n - t * nb)
  · obtain ⟨en, et⟩ := (div_iff hp).1 hw
    rw [if_pos hw]
    have oe : P.col.owner e = r.col := by
      have := Ax.owner_tile vc e
      rw [et, oc] at this
      exact this.symm
    have py := Ax.pos vc en oe
    rw [et] at py
    have hy : (P.on r).col.local_element_from_local_tile_and_tile_element ((P.on r).col.local_tile_from_global_tile t) 0 + ((e - t * nb : Nat) : Int) = P.col.localPos e := by
      refine Eq.trans ?_ py.symm
      have hm : e % nb = e - t * nb := by
        have := Nat.div_add_mod e nb
        rw [et, Nat.mul_comm] at this
        omega
      rw [hm]
      exact (loc_add (P.col.onRank r.col).dist _ _).symm
    rw [hy, hA R e (by rw [hr.size]; omega) (by rw [hc.size]; omega) orow oe]
    unfold assembleZ
    refine Eq.trans ?_ (if_pos (show ib ≤ e / nb ∧ e / nb < t + 1 ∧ e < n from ⟨by omega, by omega, en⟩)).symm
    rw [et]
    by_cases h : t < isr
    · rw [hR, if_pos h]
      have hT : (isr - 1) * nb + (tileN nb n (isr - 1) - 1) = isr * nb - 1 := by
        unfold tileN
        omega
      rw [hT]
      have : ((t : Int) < isr ∧ rho < 0) ↔ rho < 0 := ⟨fun z => z.2, fun z => ⟨by omega, z⟩⟩
      rw [if_pos h]
      simp only [this]
    · rw [hR, if_neg h, if_neg h, if_neg (fun z => h (by omega)), one_mul, Nat.add_zero]
  · rw [if_neg hw]
    unfold assembleZ
    have : (ib ≤ e / nb ∧ e / nb < t ∧ e < n) ↔ (ib ≤ e / nb ∧ e / nb < t + 1 ∧ e < n) := by
      constructor
      · rintro ⟨a, b, c⟩
        exact ⟨a, by omega, c⟩
      · rintro ⟨a, b, c⟩
        refine ⟨a, ?_, c⟩
        rcases Nat.lt_or_eq_of_le (Nat.lt_add_one_iff.1 b) with h | h
        · exact h
        · exact absurd ((div_iff hp).2 ⟨c, h⟩) hw
    simp only [this]

/-- The owner of a tile is a process. -/
theorem owner_mem {t : Nat} (ht : t * nb < n) (h0 : 0 < isr) (h1 : isr * nb < n) (q : Coord2) : zOwner (P.on q) isr t ∈ P.ranks := by
  have hp := hr.nb_pos
  have hev : ∃ R, R < n ∧ evecsRow isr t = ((R / nb : Nat) : Int) := by
    by_cases h : t < isr
    · refine ⟨(isr - 1) * nb, ?_, ?_⟩
      · have := Nat.mul_le_mul_right nb (Nat.sub_le isr 1)
        omega
      · rw [Nat.mul_div_cancel _ hp]
        unfold evecsRow
        rw [if_pos (by omega)]
        omega
    · refine ⟨isr * nb, h1, ?_⟩
      rw [Nat.mul_div_cancel _ hp]
      unfold evecsRow
      rw [if_neg (by omega)]
      omega
  have hor : 0 ≤ (zOwner (P.on q) isr t).row ∧ (zOwner (P.on q) isr t).row < P.row.grid := by
    obtain ⟨R, hR, he⟩ := hev
    have := (C01_element_owner hr.plain.valid (e := (R : Int)) (by omega) (by rw [hr.size]; omega)).1
    rw [← Ax.owner_tile hr, ← he] at this
    exact this
  have hoc : 0 ≤ (zOwner (P.on q) isr t).col ∧ (zOwner (P.on q) isr t).col < P.col.grid := by
    have := (C01_element_owner hc.plain.valid (e := ((t * nb : Nat) : Int)) (by omega) (by rw [hc.size]; omega)).1
    rw [← Ax.owner_tile hc, Nat.mul_div_cancel _ hp] at this
    exact this
  exact Params2.mem_ranks.2 fun co => by cases co; exacts [hor, hoc]

omit hr hc in
/-- A grid of one process. -/
theorem one_process (hg : ¬ 1 < P.row.grid * P.col.grid) {r s : Coord2} (hrr : r ∈ P.ranks) (hss : s ∈ P.ranks) : r = s := by
  have a := Params2.mem_ranks.1 hrr .Row
  have b := Params2.mem_ranks.1 hrr .Col
  have a' := Params2.mem_ranks.1 hss .Row
  have b' := Params2.mem_ranks.1 hss .Col
  change 0 ≤ r.row ∧ r.row < P.row.grid at a
  change 0 ≤ r.col ∧ r.col < P.col.grid at b
  change 0 ≤ s.row ∧ s.row < P.row.grid at a'
  change 0 ≤ s.col ∧ s.col < P.col.grid at b'
  have k1 : P.row.grid = 1 := by
    by_contra hne
    have : 2 * P.col.grid ≤ P.row.grid * P.col.grid := Int.mul_le_mul_of_nonneg_right (by omega) (by omega)
    omega
  have k2 : P.col.grid = 1 := by
    rw [k1] at hg
    omega
  obtain ⟨x, y⟩ := r
  obtain ⟨x', y'⟩ := s
  dsimp only at a b a' b'
  congr 1 <;> omega

/-- One tile. -/
theorem zTile_step {t : Nat} (hb : ib ≤ t) (ht : t * nb < n) (h0 : 0 < isr) (h1 : isr * nb < n) (hA : ∀ r ∈ P.ranks, HoldsLoc P r (st0 r).e0 A)
    (hrho : ∀ r ∈ P.ranks, (st0 r).rho = rho) {c : Glob DZSt DistR1.Msg} (hcl : Clean P.ranks c) (hs : ∀ r ∈ P.ranks, c.st r = stZ nb n ib isr A rho st0 t r) :
    ∃ c', Runs (fun r => if r ∈ P.ranks then zTile (P.on r) isr t else []) c c' ∧ Clean P.ranks c' ∧ ∀ r ∈ P.ranks, c'.st r = stZ nb n ib isr A rho st0 (t + 1) r := by
  have hp := hr.nb_pos
  obtain ⟨ow, how⟩ : ∃ ow : Coord2, ∀ r, zOwner (P.on r) isr t = ow := ⟨zOwner ⟨P.row.dist, P.col.dist⟩ isr t, fun r => rfl⟩
  have hmem : ow ∈ P.ranks := how ⟨0, 0⟩ ▸ owner_mem hr hc ht h0 h1 ⟨0, 0⟩
  have hoc : 0 ≤ ow.col ∧ ow.col < P.col.grid := Params2.mem_ranks.1 hmem .Col
  have hroot : ∀ k : Coord2, (Chan.full P.col.grid).rankOf (k.row * P.col.grid + k.col) = k ∨ ¬ (0 ≤ k.col ∧ k.col < P.col.grid) := by
    intro k
    by_cases h : 0 ≤ k.col ∧ k.col < P.col.grid
    · left
      obtain ⟨a, b⟩ := k
      have hg : P.col.grid ≠ 0 := by dsimp only at h; omega
      simp only [Chan.rankOf, Coord2.mk.injEq]
      dsimp only at h
      rw [Int.add_comm, Int.add_mul_ediv_right _ _ hg, Int.ediv_eq_zero_of_lt h.1 h.2, Int.add_mul_emod_self_right, Int.emod_eq_of_lt h.1 h.2]
      omega
    · exact .inr h
  have hrk := (hroot ow).resolve_right (fun z => z hoc)
  -- the owner computes
  let sOw := stZ nb n ib isr A rho st0 (t + 1) ow
  let c1 : Glob DZSt DistR1.Msg := { c with st := fun r => if r ∈ [ow] then sOw else c.st r }
  have r1 : Runs (fun r => if r ∈ [ow] then [.loc fun st => some (assembleTile (P.on r) isr t st)] else []) c c1 := by
    refine Runs.loc (by simp) (fun r st => some (assembleTile (P.on r) isr t st)) (fun _ => sOw) (fun r => rfl) fun r hro => ?_
    rw [List.mem_singleton] at hro
    subst hro
    rw [hs _ hmem, assemble_ok hr hc hb ht h0 h1 hmem (how _) (hA _ hmem) (hrho _ hmem)]
  have hc1 : Clean P.ranks c1 := ⟨hcl.agree, hcl.fresh⟩
  have hst1 : ∀ r ∈ P.ranks, c1.st r = stZ nb n ib isr A rho st0 (if r = ow then t + 1 else t) r := by
    intro r hrr
    show (if r ∈ [ow] then sOw else c.st r) = _
    by_cases h : r = ow
    · rw [if_pos (by simp [h]), if_pos h, h]
    · rw [if_neg (by simp [h]), if_neg h, hs r hrr]
  have zb : ∀ r, zBegin (P.on r) t = t * nb := by
    intro r
    have := Ax.tile_begin hc ht
    unfold zBegin
    show (P.col.dist.global_element_from_global_tile_and_tile_element t 0).toNat = _
    omega
  have zl : ∀ r, zLen (P.on r) t = min nb (n - t * nb) := by
    intro r
    have := Ax.tile_len hc ht
    unfold zLen
    show (P.col.dist.global_tile_size_of t).toNat = _
    omega
  by_cases hg : 1 < P.row.grid * P.col.grid
  · obtain ⟨c', u1, u2, u3⟩ := bcast_phase P.ranks_nodup hc1
      (p := fun r => if r ∈ P.ranks then (if r = ow then bcastSend (Chan.full P.col.grid) (ow.row * P.col.grid + ow.col) fun st => some (st, (min nb (n - t * nb), fun l => st.z (t * nb + l))) else
        bcastRecv (Chan.full P.col.grid) (ow.row * P.col.grid + ow.col) fun st v =>
          if v.1 = min nb (n - t * nb) then some { st with z := fun e => if t * nb ≤ e ∧ e < t * nb + min nb (n - t * nb) then v.2 (e - t * nb) else st.z e } else none) else [])
      (fun _ => some (Chan.full P.col.grid)) (ow.row * P.col.grid + ow.col)
      (fun _ st => some (st, (min nb (n - t * nb), fun l => st.z (t * nb + l))))
      (fun _ st v => if v.1 = min nb (n - t * nb) then some { st with z := fun e => if t * nb ≤ e ∧ e < t * nb + min nb (n - t * nb) then v.2 (e - t * nb) else st.z e } else none)
      (fun r => stZ nb n ib isr A rho st0 (t + 1) r) (fun _ => (min nb (n - t * nb), fun l => sOw.z (t * nb + l)))
      (fun r hrr => by
        beta_reduce
        rw [if_pos hrr]
        simp only [hrk])
      (fun r hrr => if_neg hrr)
      (fun r hrr ch hch => by
        obtain rfl := Option.some.inj hch
        exact ⟨rfl, fun s _ _ => rfl⟩)
      (fun r hrr ch hch => by
        obtain rfl := Option.some.inj hch
        rw [hrk]
        exact hmem)
      (fun r hrr ch hch he => by
        obtain rfl := Option.some.inj hch
        rw [hrk] at he
        beta_reduce
        rw [hst1 r hrr, if_pos he, he])
      (fun r hrr ch hch he => by
        obtain rfl := Option.some.inj hch
        rw [hrk] at he
        beta_reduce
        rw [if_pos rfl, hst1 r hrr, if_neg he]
        congr 1
        unfold stZ
        dsimp only
        congr 1
        funext e
        by_cases hw : t * nb ≤ e ∧ e < t * nb + min nb (n - t * nb)
        · obtain ⟨en, et⟩ := (div_iff hp).1 hw
          rw [if_pos hw]
          show assembleZ nb n ib isr (t + 1) rho A (st0 ow).z (t * nb + (e - t * nb)) = _
          rw [show t * nb + (e - t * nb) = e by omega]
          unfold assembleZ
          exact (if_pos (show ib ≤ e / nb ∧ e / nb < t + 1 ∧ e < n from ⟨by omega, by omega, en⟩)).trans
            (if_pos (show ib ≤ e / nb ∧ e / nb < t + 1 ∧ e < n from ⟨by omega, by omega, en⟩)).symm
        · rw [if_neg hw]
          unfold assembleZ
          have : (ib ≤ e / nb ∧ e / nb < t ∧ e < n) ↔ (ib ≤ e / nb ∧ e / nb < t + 1 ∧ e < n) := by
            constructor
            · rintro ⟨a, b, c⟩
              exact ⟨a, by omega, c⟩
            · rintro ⟨a, b, c⟩
              refine ⟨a, ?_, c⟩
              rcases Nat.lt_or_eq_of_le (Nat.lt_add_one_iff.1 b) with h | h
              · exact h
              · exact absurd ((div_iff hp).2 ⟨c, h⟩) hw
          simp only [this])
    refine ⟨c', (r1.append u1).congr fun r => ?_, u2, fun r hrr => ?_⟩
    · by_cases hrr : r ∈ P.ranks
      · simp only [if_pos hrr]
        unfold zTile
        dsimp only
        rw [how r, zb, zl]
        have e1 : (P.on r).row.grid * (P.on r).col.grid = P.row.grid * P.col.grid := rfl
        have e2 : (P.on r).col.grid = P.col.grid := rfl
        have e3 : (⟨(P.on r).row.rank, (P.on r).col.rank⟩ : Coord2) = r := rfl
        rw [e1, e2, e3]
        by_cases h : r = ow
        · rw [if_pos h.symm, if_pos hg, if_pos (show r ∈ [ow] by simp [h]), if_pos h]
        · rw [if_neg (fun z => h z.symm), if_neg (show r ∉ [ow] by simp [h]), if_neg h, List.nil_append]
      · have : r ∉ [ow] := fun z => hrr (by rw [List.mem_singleton.1 z]; exact hmem)
        simp only [if_neg hrr, if_neg this]
        rfl
    · rw [u3 r, if_pos ⟨hrr, rfl⟩]
  · -- only one process
    have hone : ∀ r ∈ P.ranks, r = ow := fun r hrr => one_process hg hrr hmem
    refine ⟨c1, r1.congr fun r => ?_, hc1, fun r hrr => ?_⟩
    · by_cases hrr : r ∈ P.ranks
      · have h := hone r hrr
        rw [if_pos hrr, if_pos (by simp [h])]
        unfold zTile
        dsimp only
        have e1 : (P.on r).row.grid * (P.on r).col.grid = P.row.grid * P.col.grid := rfl
        have e3 : (⟨(P.on r).row.rank, (P.on r).col.rank⟩ : Coord2) = r := rfl
        rw [how r, e1, e3, if_pos h.symm, if_neg hg, List.append_nil]
      · have : r ∉ [ow] := fun z => hrr (by rw [List.mem_singleton.1 z]; exact hmem)
        simp only [if_neg hrr, if_neg this]
    · rw [hst1 r hrr, if_pos (hone r hrr)]

/-- All tiles. -/
theorem assembleZ_runs {ie : Nat} (hbe : ib ≤ ie) (he : (ie - 1) * nb < n) (h0 : 0 < isr) (h1 : isr * nb < n) (hA : ∀ r ∈ P.ranks, HoldsLoc P r (st0 r).e0 A)
    (hrho : ∀ r ∈ P.ranks, (st0 r).rho = rho) {c : Glob DZSt DistR1.Msg} (hcl : Clean P.ranks c) (hs : ∀ r ∈ P.ranks, c.st r = st0 r) :
    ∃ c', Runs (fun r => if r ∈ P.ranks then assembleZDist (P.on r) isr ib ie else []) c c' ∧ Clean P.ranks c' ∧ ∀ r ∈ P.ranks, c'.st r = stZ nb n ib isr A rho st0 ie r := by
  obtain ⟨c', u1, u2⟩ := Runs.range (p := fun t r => if r ∈ P.ranks then zTile (P.on r) isr t else []) (s := (ib : Int)) (e := (ie : Int)) (by omega)
    (fun t c => Clean P.ranks c ∧ ∀ r ∈ P.ranks, c.st r = stZ nb n ib isr A rho st0 t.toNat r) (g := c)
    ⟨hcl, fun r hrr => by
      rw [hs r hrr]
      unfold stZ
      have : assembleZ nb n ib isr (ib : Int).toNat rho A (st0 r).z = (st0 r).z := by
        funext x
        unfold assembleZ
        rw [if_neg (by rintro ⟨a, b, _⟩; omega)]
      rw [this]⟩
    (fun t k0 k1 c hcc => by
      obtain ⟨t', rfl⟩ : ∃ t' : Nat, t = t' := ⟨t.toNat, by omega⟩
      have ht : t' * nb < n := by
        have := Nat.mul_le_mul_right nb (show t' ≤ ie - 1 by omega)
        omega
      obtain ⟨c', v1, v2, v3⟩ := zTile_step hr hc (ib := ib) (isr := isr) (show ib ≤ t' by omega) ht h0 h1 hA hrho hcc.1 (by simpa using hcc.2)
      exact ⟨c', v1, v2, by simpa using v3⟩)
  refine ⟨c', u1.congr fun r => ?_, u2.1, by simpa using u2.2⟩
  by_cases hrr : r ∈ P.ranks
  · simp only [hrr, if_true]
    rfl
  · simp [hrr]

end DistZ
end DLAF
