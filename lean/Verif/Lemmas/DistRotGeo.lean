import Verif.Model.DistRot
import Verif.Lemmas.DistBtTasks
import Verif.Props.Retile
/- The sub-distribution of a diagonal block. -/
namespace DLAF

theorem Plain.rank_eq {p : Params} (hp : Plain p) {t : Int} (ht : 0 ≤ t) : p.dist.rank_global_tile t = (t + p.src) % p.grid := by
  have w := hp.valid.wf
  have e1 : p.dist.tiles_per_block = 1 := by
    unfold Dist1.tiles_per_block
    have a : p.dist.blockSize = p.block := rfl
    have b : p.dist.tileSize = p.tile := rfl
    rw [a, b, hp.block]
    exact Int.tdiv_self (by have := hp.tile_pos; omega)
  have e2 : p.dist.global_tile_offset = 0 := by
    unfold Dist1.global_tile_offset
    rw [hp.valid.offset_eq, hp.offset, Int.zero_emod]
    exact Int.zero_tdiv _
  have e3 : p.dist.src = p.src % p.grid := by rw [hp.valid.src_eq, hp.offset, Int.zero_ediv, Int.add_zero]
  unfold Dist1.rank_global_tile
  rw [e1, e2, rank_global_tile_eq_mod (by omega) w.src_nonneg (le_refl 0) ht, e3, show p.dist.grid = p.grid from rfl]
  simp [Int.add_emod]

/-- The distribution of `len` elements from tile `ib` on. -/
def Params.cut (p : Params) (len ib : Nat) : Params := ⟨len, p.tile, p.tile, p.grid, p.rank, p.dist.rank_global_tile ib, 0⟩

section
variable {p : Params} {n nb : Nat} (h : Ax p n nb)
include h

theorem Ax.cut (len ib : Nat) : Ax (p.cut len ib) len nb := by
  have v := h.plain.valid
  have r := v.wf.cyc.rank_range (t := (ib : Int)) (by omega)
  refine ⟨⟨⟨⟨?_, h.plain.tile_pos, h.plain.tile_pos, ?_, v.2.2.2.2.1, v.2.2.2.2.2.1, r, le_refl 0⟩, rfl⟩, rfl⟩, rfl, h.tile⟩
  · exact Int.natCast_nonneg _
  · exact Int.emod_self

theorem Ax.cut_rank (len ib t : Nat) : (p.cut len ib).dist.rank_global_tile t = p.dist.rank_global_tile ((ib + t : Nat) : Int) := by
  rw [(h.cut len ib).plain.rank_eq (by omega), h.plain.rank_eq (by omega)]
  show ((t : Int) + p.dist.rank_global_tile ib) % p.grid = _
  rw [h.plain.rank_eq (by omega), Int.add_emod_emod]
  congr 1
  push_cast
  omega

theorem Ax.cut_nx (len ib t : Nat) : (p.cut len ib).nx t = p.nx ((ib + t : Nat) : Int) - p.nx ib := by
  induction t with
  | zero =>
    have := (h.cut len ib).plain.nx_zero
    simp only [Nat.add_zero, Int.sub_self]
    exact this
  | succ t ih =>
    have e := h.cut_rank len ib t
    by_cases ho : p.dist.rank_global_tile ((ib + t : Nat) : Int) = p.rank
    · have a := h.plain.nx_succ (t := ((ib + t : Nat) : Int)) (by omega) ho
      have b := (h.cut len ib).plain.nx_succ (t := (t : Int)) (by omega) (by rw [e, ho]; rfl)
      have c1 : ((t + 1 : Nat) : Int) = (t : Int) + 1 := by push_cast; rfl
      have c2 : ((ib + (t + 1) : Nat) : Int) = ((ib + t : Nat) : Int) + 1 := by push_cast; omega
      rw [c1, c2, a, b, ih]
      omega
    · have a := h.plain.nx_skip (t := ((ib + t : Nat) : Int)) (by omega) ho
      have b := (h.cut len ib).plain.nx_skip (t := (t : Int)) (by omega) (by rw [e]; exact ho)
      have c1 : ((t + 1 : Nat) : Int) = (t : Int) + 1 := by push_cast; rfl
      have c2 : ((ib + (t + 1) : Nat) : Int) = ((ib + t : Nat) : Int) + 1 := by push_cast; omega
      rw [c1, c2, a, b, ih]

theorem Ax.cut_gn (len ib k : Nat) : p.gn (p.nx ib + k) = ib + (p.cut len ib).gn k := by
  have hc := h.cut len ib
  obtain ⟨t, ht⟩ : ∃ t : Nat, (p.cut len ib).gl k = t := ⟨_, (hc.gn_cast (i := (k : Int)) (by omega)).symm⟩
  have o1 : (p.cut len ib).dist.rank_global_tile t = p.rank := by
    have := hc.plain.gl_own (i := (k : Int)) (by omega)
    rw [ht] at this
    exact this
  have o2 : p.dist.rank_global_tile ((ib + t : Nat) : Int) = p.rank := by rw [← h.cut_rank len]; exact o1
  have l1 : (p.cut len ib).lc t = k := by rw [← ht]; exact hc.plain.lc_gl (by omega)
  have l2 : (p.cut len ib).lc t = (p.cut len ib).nx t := hc.plain.lc_nx (by omega) o1
  have l3 := h.cut_nx len ib t
  have l4 := h.plain.lc_nx (t := ((ib + t : Nat) : Int)) (by omega) o2
  have l5 := h.plain.gl_lc (t := ((ib + t : Nat) : Int)) (by omega) o2
  have e : p.nx ib + k = p.lc ((ib + t : Nat) : Int) := by omega
  unfold Params.gn
  rw [e, l5, ht]
  omega

/-- Local element `e` is in the matrix. -/
theorem Ax.lt_localSize (e : Nat) : (e : Int) < p.dist.localSize ↔
    ((e / nb : Nat) : Int) < p.dist.localNrTiles ∧ e % nb < min nb (n - p.gn ((e / nb : Nat) : Int) * nb) := by
  have hp := h.nb_pos
  have hb : p.block = nb := by rw [h.plain.block]; exact h.tile
  have R : RetileOK p 1 := ⟨h.plain.valid, by rw [h.plain.offset, Int.zero_emod], h.plain.block.symm, by omega, Int.emod_one _⟩
  have l := R.lt_iff (t := ((e / nb : Nat) : Int)) (Int.natCast_nonneg _)
  have s := R.sz_eq (t := ((e / nb : Nat) : Int)) (Int.natCast_nonneg _)
  rw [hb] at l s
  have c : ((e / nb : Nat) : Int) * (nb : Int) = ((e / nb * nb : Nat) : Int) := by push_cast; rfl
  rw [c] at l s
  have dm := Nat.div_add_mod e nb
  have ml := Nat.mod_lt e hp
  rw [Nat.mul_comm] at dm
  constructor
  · intro a
    have h1 := l.2 (by omega)
    refine ⟨h1, ?_⟩
    have z := h.sz (i := ((e / nb : Nat) : Int)) (Int.natCast_nonneg _) h1
    rw [← h.plain.valid.wf.local_tsz_eq (Int.natCast_nonneg _) h1, s] at z
    omega
  · rintro ⟨a, b⟩
    have z := h.sz (i := ((e / nb : Nat) : Int)) (Int.natCast_nonneg _) a
    rw [← h.plain.valid.wf.local_tsz_eq (Int.natCast_nonneg _) a, s] at z
    omega

end
end DLAF
