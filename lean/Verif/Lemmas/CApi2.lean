import Verif.Lemmas.CApi
/- Lemmas for C62: two elements of a process are at different places of its buffer. -/
namespace DLAF

theorem Ax.indxg2l_lt {p : Params} {n nb : Nat} (h : Ax p n nb) {np src x : Nat} (hg : p.grid = np) (hs : p.src = src) (hx : x < n)
    (hr : p.rank = DLAF.indxg2p x nb src np) : ((DLAF.indxg2l x nb np : Nat) : Int) < p.dist.localSize := by
  have hb : p.block = nb := by rw [h.plain.block, h.tile]
  have ho := C12_owner h.plain.valid h.plain.offset (i := x) hb hg hs
  have hl := C12_local_index h.plain.valid h.plain.offset (i := x) hb hg hs hr
  have w := h.plain.valid.wf
  rw [← hl, w.local_elem (by omega), w.localSize_next]
  exact w.cycE.local_lt (by omega) (by show (x : Int) < p.size; rw [h.size]; omega) (by rw [← w.rank_elem (by omega), ho]; exact hr)

theorem Ax.indxg2l_inj {p : Params} {n nb : Nat} (h : Ax p n nb) {np src x x' : Nat} (hg : p.grid = np) (hs : p.src = src) (hx : x < n) (hx' : x' < n)
    (hr : p.rank = DLAF.indxg2p x nb src np) (hr' : p.rank = DLAF.indxg2p x' nb src np) (he : DLAF.indxg2l x nb np = DLAF.indxg2l x' nb np) : x = x' := by
  have hb := h.nb_pos
  have e1 := h.indxg2l hg hs hx hr
  have e2 := h.indxg2l hg hs hx' hr'
  rw [he, ← e2] at e1
  have m1 := Nat.mod_lt x hb
  have m2 := Nat.mod_lt x' hb
  have hlc : p.lc ((x / nb : Nat) : Int) = p.lc ((x' / nb : Nat) : Int) := by
    show p.dist.local_tile_from_global_tile _ = p.dist.local_tile_from_global_tile _
    generalize p.dist.local_tile_from_global_tile ((x / nb : Nat) : Int) = a at e1 ⊢
    generalize p.dist.local_tile_from_global_tile ((x' / nb : Nat) : Int) = b at e1 ⊢
    by_contra hne
    rcases lt_or_gt_of_ne hne with hlt | hlt
    · have := Int.mul_le_mul_of_nonneg_right (show a + 1 ≤ b by omega) (show (0 : Int) ≤ nb by omega)
      rw [Int.add_mul, Int.one_mul] at this
      omega
    · have := Int.mul_le_mul_of_nonneg_right (show b + 1 ≤ a by omega) (show (0 : Int) ≤ nb by omega)
      rw [Int.add_mul, Int.one_mul] at this
      omega
  have o1 := h.indxg2p hg hs x
  have o2 := h.indxg2p hg hs x'
  have g1 := h.plain.gl_lc (t := ((x / nb : Nat) : Int)) (Int.natCast_nonneg _) (by rw [o1, hr])
  have g2 := h.plain.gl_lc (t := ((x' / nb : Nat) : Int)) (Int.natCast_nonneg _) (by rw [o2, hr'])
  rw [hlc, g2] at g1
  have hd : x / nb = x' / nb := by exact_mod_cast g1.symm
  have hlc' : p.dist.local_tile_from_global_tile ((x / nb : Nat) : Int) = p.dist.local_tile_from_global_tile ((x' / nb : Nat) : Int) := hlc
  rw [hlc'] at e1
  have hm : x % nb = x' % nb := by omega
  rw [← Nat.div_add_mod x nb, ← Nat.div_add_mod x' nb, hd, hm]

namespace ScaMat
variable {S : ScaMat} (hS : S.Legal)
include hS

theorem pos_inj {r : Coord2} (hr : r ∈ S.params.ranks) {lld : Nat} (hl : S.LldOk r lld) :
    ∀ x < S.n, ∀ y < S.n, ∀ x' < S.n, ∀ y' < S.n, S.owner x y = r → S.owner x' y' = r → S.pos lld x y = S.pos lld x' y' → x = x' ∧ y = y' := by
  intro x hx y hy x' hx' y' hy' o o' he
  have a1 := ax1 hS hr
  have a2 := ax2 hS hr
  have hg := mem_ranks.1 hr
  have hrow := hg.1
  have r1 : r.row = DLAF.indxg2p x S.mb S.rsrc S.npr := by rw [← o]; rfl
  have r2 : r.row = DLAF.indxg2p x' S.mb S.rsrc S.npr := by rw [← o']; rfl
  have c1 : r.col = DLAF.indxg2p y S.mb S.csrc S.npc := by rw [← o]; rfl
  have c2 : r.col = DLAF.indxg2p y' S.mb S.csrc S.npc := by rw [← o']; rfl
  have b1 := a1.indxg2l_lt (np := S.npr) (src := S.rsrc) rfl rfl hx r1
  have b2 := a1.indxg2l_lt (np := S.npr) (src := S.rsrc) rfl rfl hx' r2
  rw [C12_numroc a1.plain.valid a1.plain.offset (n := S.n) (nb := S.mb) (np := S.npr) (iproc := r.row.toNat) (isrc := S.rsrc) rfl rfl rfl rfl
    (show r.row = _ by omega)] at b1 b2
  unfold LldOk at hl
  unfold pos at he
  have key : DLAF.indxg2l x S.mb S.npr = DLAF.indxg2l x' S.mb S.npr ∧ DLAF.indxg2l y S.mb S.npc = DLAF.indxg2l y' S.mb S.npc := by
    generalize DLAF.indxg2l x S.mb S.npr = a at *
    generalize DLAF.indxg2l x' S.mb S.npr = a' at *
    generalize DLAF.indxg2l y S.mb S.npc = b at *
    generalize DLAF.indxg2l y' S.mb S.npc = b' at *
    have he : a + b * lld = a' + b' * lld := by exact_mod_cast he
    have hb : b = b' := by
      by_contra hne
      rcases lt_or_gt_of_ne hne with hlt | hlt
      · have := Nat.mul_le_mul_right lld (show b + 1 ≤ b' by omega)
        rw [Nat.add_mul, Nat.one_mul] at this
        omega
      · have := Nat.mul_le_mul_right lld (show b' + 1 ≤ b by omega)
        rw [Nat.add_mul, Nat.one_mul] at this
        omega
    subst hb
    omega
  exact ⟨a1.indxg2l_inj (np := S.npr) (src := S.rsrc) rfl rfl hx hx' r1 r2 key.1, a2.indxg2l_inj (np := S.npc) (src := S.csrc) rfl rfl hy hy' c1 c2 key.2⟩

end ScaMat
end DLAF
