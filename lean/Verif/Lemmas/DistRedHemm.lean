import Verif.Lemmas.DistRedMirror
import Verif.Lemmas.RedBandTrail
/- Distributed reduction to band: the tasks of `hemmComputeX`. -/
namespace DLAF
open scoped Classical
namespace DistRed
variable {K : Type*} [RCLike K] {P : Params2} {n nb band j : Nat} {dt : Coord2 → Dist1}

/-- A diagonal tile times a panel. -/
theorem hemm_low_win {a w x : Blk K} {A W X : Elems K} {r0 m k : Nat} (ha : IsWin a A r0 r0 m m) (hw : IsWin w W r0 0 m k) (hx : IsWin x X r0 0 m k) :
    ∃ d, hemm .Left .Lower 1 a w 1 x = some d ∧
      IsWin d (fun x y => X x y + ∑ l ∈ Finset.range m, lowE A x (r0 + l) * W (r0 + l) y) r0 0 m k := by
  unfold hemm
  dsimp only
  rw [if_pos ⟨hx.1.trans ha.1.symm, hx.2.1.trans hw.2.1.symm, ha.2.1.trans hw.1.symm⟩]
  refine ⟨_, rfl, hx.1, hx.2.1, fun r hr c hc => ?_⟩
  simp only [Blk.mul, Blk.herm, ha.2.1, one_mul, hx.2.2 r hr c hc]
  rw [add_comm]
  congr 1
  refine Finset.sum_congr rfl fun l hl => ?_
  rw [Finset.mem_range] at hl
  rw [hw.2.2 l hl c hc]
  congr 1
  unfold lowE
  by_cases h : l ≤ r
  · rw [if_pos (by simpa using h), if_pos (by omega), ha.2.2 r hr l hl]
  · rw [if_neg (by simpa using h), if_neg (by omega), ha.2.2 l hl r hr]

/-- A tile below the diagonal times a panel. -/
theorem gemm_low_win {a w x : Blk K} {A W X : Elems K} {s0 m u0 m' k : Nat} (hsu : u0 + m' ≤ s0) (ha : IsWin a A s0 u0 m m') (hw : IsWin w W u0 0 m' k)
    (hx : IsWin x X s0 0 m k) :
    ∃ d, gemm .NoTrans .NoTrans 1 a w 1 x = some d ∧
      IsWin d (fun x y => X x y + ∑ l ∈ Finset.range m', lowE A x (u0 + l) * W (u0 + l) y) s0 0 m k := by
  obtain ⟨d, d1, d2⟩ := gemm_win .NoTrans .NoTrans 1 1 (a := a) (b := w) (c := x) ha hw hx
  refine ⟨d, d1, d2.congr fun x x0 x1 y _ _ => ?_⟩
  rw [one_mul, one_mul, add_comm]
  congr 1
  refine Finset.sum_congr rfl fun l hl => ?_
  rw [Finset.mem_range] at hl
  unfold lowE
  rw [if_pos (by omega)]

/-- The conjugate transposed of a tile below the diagonal times a panel. -/
theorem gemm_up_win {a w x : Blk K} {A W X : Elems K} {s0 m u0 m' k : Nat} (hsu : u0 + m' ≤ s0) (ha : IsWin a A s0 u0 m m') (hw : IsWin w W s0 0 m k)
    (hx : IsWin x X u0 0 m' k) :
    ∃ d, gemm .ConjTrans .NoTrans 1 a w 1 x = some d ∧
      IsWin d (fun x y => X x y + ∑ l ∈ Finset.range m, lowE A x (s0 + l) * W (s0 + l) y) u0 0 m' k := by
  obtain ⟨d, d1, d2⟩ := gemm_win .ConjTrans .NoTrans 1 1 (a := a) (b := w) (c := x) (conj_win ha) hw hx
  refine ⟨d, d1, d2.congr fun x x0 x1 y _ _ => ?_⟩
  rw [one_mul, one_mul, add_comm]
  congr 1
  refine Finset.sum_congr rfl fun l hl => ?_
  rw [Finset.mem_range] at hl
  unfold lowE
  rw [if_neg (by omega)]

/-- The part of `A W` with the columns of tile `m`. -/
noncomputable def Sm (n nb band j : Nat) (A W : Elems K) (m : Nat) : Elems K := fun x y =>
  ∑ l ∈ Finset.range (pc nb n band j m).2, lowE A x ((pc nb n band j m).1 + l) * W ((pc nb n band j m).1 + l) y

/-- What the tile `(a, b)` of the lower triangle contributes to the tile `t` of `A W`. -/
noncomputable def contrib (n nb band j : Nat) (A W : Elems K) (a b t : Nat) : Elems K := fun x y =>
  (if a = t then Sm n nb band j A W b x y else 0) + if b = t ∧ a ≠ t then Sm n nb band j A W a x y else 0

/-- What a process holds of `X`: its tiles, and the tiles that belong to other process rows. -/
def HX (P : Params2) (n nb band j : Nat) (r : Coord2) (XM : Nat → Elems K) (s : RbSt K) : Prop :=
  (∀ i ∈ rows band (P.on r) j, ∃ v, s.pX i = some v ∧ IsWin v (XM ((P.row.onRank r.row).gn i)) (pc nb n band j ((P.row.onRank r.row).gn i)).1 0
    (pc nb n band j ((P.row.onRank r.row).gn i)).2 (nr n band j)) ∧
  ∀ l, 0 ≤ l → l < (P.col.onRank r.col).dist.localNrTiles → (j + 1) * band / nb ≤ (P.col.onRank r.col).gn l →
    (P.col.onRank r.col).gn l + 1 < (n + nb - 1) / nb → P.row.dist.rank_global_tile (((P.col.onRank r.col).gn l : Nat) : Int) ≠ r.row →
    ∃ v, s.pXt l = some v ∧ IsWin v (XM ((P.col.onRank r.col).gn l)) (pc nb n band j ((P.col.onRank r.col).gn l)).1 0
      (pc nb n band j ((P.col.onRank r.col).gn l)).2 (nr n band j)

section
variable (h : Geo P n nb band j)
include h

omit [RCLike K] in
/-- The tiles of the trailing matrix: where their sub-tiles are. -/
theorem Geo.aSpec_eq {r : Coord2} (hr : r ∈ P.ranks) {i l : Int} (hi : i ∈ rows band (P.on r) j)
    (h0 : 0 ≤ l) (h1 : l < (P.col.onRank r.col).dist.localNrTiles) (h2 : (j + 1) * band / nb ≤ (P.col.onRank r.col).gn l) :
    ∃ c c', aSpec band (P.on r) j ⟨i, l⟩ = ((c, c'), ((pc nb n band j ((P.row.onRank r.row).gn i)).2, (pc nb n band j ((P.col.onRank r.col).gn l)).2)) ∧
      (P.row.onRank r.row).gn i * nb + c = (pc nb n band j ((P.row.onRank r.row).gn i)).1 ∧
      c + (pc nb n band j ((P.row.onRank r.row).gn i)).2 = min nb (n - (P.row.onRank r.row).gn i * nb) ∧
      (P.col.onRank r.col).gn l * nb + c' = (pc nb n band j ((P.col.onRank r.col).gn l)).1 ∧
      c' + (pc nb n band j ((P.col.onRank r.col).gn l)).2 = min nb (n - (P.col.onRank r.col).gn l * nb) := by
  have hi' := (h.mem_rows hr).1 hi
  have a1 := h.row hr
  have a2 := h.col hr
  have hm := h.modr
  have hd := h.r0_div
  have hb := h.hb
  have hn := h.r0n
  have l1 := a1.gn_lt hi'.1 hi'.2.1
  have l2 := a2.gn_lt h0 h1
  refine ⟨if (P.row.onRank r.row).gn i = (j + 1) * band / nb then (j + 1) * band % nb else 0,
    if (P.col.onRank r.col).gn l = (j + 1) * band / nb then (j + 1) * band % nb else 0, ?_, rfl, ?_, rfl, ?_⟩
  · unfold aSpec DistRed.r0
    dsimp only
    have e1 : (P.on r).row = (P.row.onRank r.row).dist := rfl
    have e2 : (P.on r).col = (P.col.onRank r.col).dist := rfl
    have e3 : (P.row.onRank r.row).dist.global_tile_from_local_tile i = (P.row.onRank r.row).gl i := rfl
    have e4 : (P.col.onRank r.col).dist.global_tile_from_local_tile l = (P.col.onRank r.col).gl l := rfl
    rw [e1, e2, a1.matrixCut hi'.1 (fun hg _ => ?_), a2.matrixCut h0 (fun hg _ => ?_), e3, e4, a1.sz hi'.1 hi'.2.1, a2.sz h0 h1]
    · unfold pc pieceOf
      dsimp only
      congr 2 <;> omega
    · unfold View.hasSub
      rw [Bool.or_eq_true]
      refine .inr ?_
      rw [e2]
      refine (a2.hasTop (off := (j + 1) * band)).2 ?_
      rw [← hg, a2.gn_cast h0]
      exact a2.plain.gl_own h0
    · unfold View.hasSub
      rw [Bool.or_eq_true]
      refine .inl ?_
      rw [e1]
      refine (a1.hasTop (off := (j + 1) * band)).2 ?_
      rw [← hg, a1.gn_cast hi'.1]
      exact a1.plain.gl_own hi'.1
  · unfold pc pieceOf
    dsimp only
    split
    · rename_i e; rw [e] at l1 ⊢; omega
    · omega
  · unfold pc pieceOf
    dsimp only
    split
    · rename_i e; rw [e] at l2 ⊢; omega
    · omega

omit [RCLike K] in
/-- Pieces of increasing tiles do not overlap. -/
theorem Geo.pc_mono {a b : Nat} (hab : a < b) : (pc nb n band j a).1 + (pc nb n band j a).2 ≤ (pc nb n band j b).1 := by
  have hm := h.modr
  have hb := h.hb
  have := Nat.mul_le_mul_right nb (Nat.succ_le_of_lt hab)
  rw [Nat.succ_mul] at this
  unfold pc pieceOf
  dsimp only
  split <;> split <;> omega

/-- One tile of the lower triangle. -/
theorem Geo.hemmTask_ps {r : Coord2} (hr : r ∈ P.ranks) {A W : Elems K} {s : RbSt K} (hA : WinAt P n nb n nb r A s.a)
    (hW : HR P n nb band j r W s.pW) (hWt : HT P n nb band j ((((n + nb - 1) / nb : Nat) : Int) - 1) r W s.pWt) {XM : Nat → Elems K} (hX : HX P n nb band j r XM s)
    {i l : Int} (hi : i ∈ rows band (P.on r) j) (l0 : 0 ≤ l) (l1 : l < (P.col.onRank r.col).dist.localNrTiles)
    (l2 : (j + 1) * band / nb ≤ (P.col.onRank r.col).gn l) (hil : (P.col.onRank r.col).gn l ≤ (P.row.onRank r.row).gn i) :
    ∃ p pt, hemmTask n band (P.on r) j ⟨i, l⟩ s = some { s with pX := p, pXt := pt } ∧
      HX P n nb band j r (fun t x y => XM t x y + contrib n nb band j A W ((P.row.onRank r.row).gn i) ((P.col.onRank r.col).gn l) t x y)
        { s with pX := p, pXt := pt } := by
  have hi' := (h.mem_rows hr).1 hi
  have a1 := h.row hr
  have a2 := h.col hr
  obtain ⟨c, c', z1, z2, z3, z4, z5⟩ := h.aSpec_eq hr hi l0 l1 l2
  have hw := hA i l hi'.1 hi'.2.1 l0 l1
  obtain ⟨ab, s1, s2⟩ := Blk.sub_win (r0 := c) (c0 := c') (h := (pc nb n band j ((P.row.onRank r.row).gn i)).2)
    (w := (pc nb n band j ((P.col.onRank r.col).gn l)).2) hw (by omega) (by omega)
  rw [z2, z4] at s2
  obtain ⟨w, w1, w2⟩ := hW i hi
  obtain ⟨xv, x1, x2⟩ := hX.1 i hi
  have hgi : (P.on r).row.global_tile_from_local_tile i = (((P.row.onRank r.row).gn i : Nat) : Int) := (a1.gn_cast hi'.1).symm
  have hgl : (P.on r).col.global_tile_from_local_tile l = (((P.col.onRank r.col).gn l : Nat) : Int) := (a2.gn_cast l0).symm
  have hinj : ∀ i' ∈ rows band (P.on r) j, (P.row.onRank r.row).gn i' = (P.row.onRank r.row).gn i → i' = i := by
    intro i' h' e
    have h2 := (h.mem_rows hr).1 h'
    refine a1.plain.gl_inj h2.1 hi'.1 ?_
    rw [← a1.gn_cast h2.1, ← a1.gn_cast hi'.1, e]
  have hgown : P.row.dist.rank_global_tile (((P.row.onRank r.row).gn i : Nat) : Int) = r.row := by
    rw [a1.gn_cast hi'.1]; exact a1.plain.gl_own hi'.1
  unfold hemmTask
  dsimp only
  rw [z1, hgi, hgl]
  dsimp only
  rw [s1, Option.bind_some]
  have hvs := h.vSize_eq hr hi
  by_cases hd : (P.row.onRank r.row).gn i = (P.col.onRank r.col).gn l
  · rw [if_pos (by rw [hd])]
    have e1 : RbSt.rW.read i s = some w := w1
    have e2 : RbSt.rX.read i s = some xv := x1
    rw [← hd] at s2
    obtain ⟨d, d1, d2⟩ := hemm_low_win s2 w2 x2
    rw [e1, Option.bind_some, e2, Option.bind_some, d1, Option.bind_some]
    refine ⟨set1 s.pX i (some d), s.pXt, ?_, ?_, ?_⟩
    · unfold ERef.write
      rw [if_pos ⟨by rw [hvs]; exact d2.1, by rw [hvs]; exact d2.2.1⟩]
      rfl
    · intro i' hi2
      by_cases e : i' = i
      · subst e
        refine ⟨d, set1_at s.pX i' _, d2.congr fun x _ _ y _ _ => ?_⟩
        unfold contrib
        beta_reduce
        rw [if_pos rfl, if_neg (by rintro ⟨_, h2⟩; exact h2 rfl), add_zero, ← hd]
        rfl
      · obtain ⟨v, v1, v2⟩ := hX.1 i' hi2
        have hne : (P.row.onRank r.row).gn i ≠ (P.row.onRank r.row).gn i' := fun e' => e (hinj i' hi2 e'.symm)
        refine ⟨v, ?_, v2.congr fun x _ _ y _ _ => ?_⟩
        · show set1 s.pX i _ i' = _
          unfold set1
          rw [if_neg e]
          exact v1
        · unfold contrib
          beta_reduce
          rw [if_neg hne, if_neg (by rintro ⟨h1, _⟩; exact hne (hd.trans h1)), add_zero, add_zero]
    · intro l' l0' l1' l2' l3' hro
      obtain ⟨v, v1, v2⟩ := hX.2 l' l0' l1' l2' l3' hro
      have hne : (P.row.onRank r.row).gn i ≠ (P.col.onRank r.col).gn l' := fun e' => hro (by rw [← e']; exact hgown)
      refine ⟨v, v1, v2.congr fun x _ _ y _ _ => ?_⟩
      unfold contrib
      beta_reduce
      rw [if_neg hne, if_neg (by rintro ⟨h1, _⟩; exact hne (hd.trans h1)), add_zero, add_zero]
  · have hlt : (P.col.onRank r.col).gn l < (P.row.onRank r.row).gn i := by omega
    rw [if_neg (by omega)]
    have hpm := h.pc_mono hlt
    have hgn := (a1.lt_nt _).2 (a1.gn_lt hi'.1 hi'.2.1)
    obtain ⟨wt, t1, t2⟩ := hWt l l0 l1 l2 (by omega)
    have e1 : RbSt.rWt.read l s = some wt := t1
    have e2 : RbSt.rX.read i s = some xv := x1
    obtain ⟨d, d1, d2⟩ := gemm_low_win hpm s2 t2 x2
    have hwr : RbSt.rX.write (vSize n band (P.on r) j i) i d s = some { s with pX := set1 s.pX i (some d) } := by
      unfold ERef.write
      rw [if_pos ⟨by rw [hvs]; exact d2.1, by rw [hvs]; exact d2.2.1⟩]
      rfl
    rw [e1, Option.bind_some, e2, Option.bind_some, d1, Option.bind_some, hwr, Option.bind_some]
    have e3 : RbSt.rW.read i ({ s with pX := set1 s.pX i (some d) } : RbSt K) = some w := w1
    rw [e3, Option.bind_some]
    by_cases ho : P.row.dist.rank_global_tile (((P.col.onRank r.col).gn l : Nat) : Int) = r.row
    · have ho' : (P.on r).row.rank_global_tile (((P.col.onRank r.col).gn l : Nat) : Int) = (P.on r).row.rank := ho
      rw [if_pos ho']
      obtain ⟨o1, o2⟩ := h.own_row hr ((a2.lt_nt _).2 (a2.gn_lt l0 l1)) l2 ho
      have hli : (P.on r).row.local_tile_from_global_tile (((P.col.onRank r.col).gn l : Nat) : Int) =
        (P.row.onRank r.row).lc (((P.col.onRank r.col).gn l : Nat) : Int) := rfl
      rw [hli]
      generalize (P.row.onRank r.row).lc (((P.col.onRank r.col).gn l : Nat) : Int) = i2 at *
      have hne2 : i2 ≠ i := fun e => by rw [e] at o2; omega
      obtain ⟨xu, u1, u2⟩ := hX.1 i2 o1
      rw [o2] at u2
      obtain ⟨d', d3, d4⟩ := gemm_up_win hpm s2 w2 u2
      have e4 : RbSt.rX.read i2 ({ s with pX := set1 s.pX i (some d) } : RbSt K) = some xu := by
        show set1 s.pX i _ i2 = _
        unfold set1
        rw [if_neg hne2]
        exact u1
      have hvs2 := h.vSize_eq hr o1
      rw [o2] at hvs2
      rw [e4, Option.bind_some, d3, Option.bind_some]
      refine ⟨set1 (set1 s.pX i (some d)) i2 (some d'), s.pXt, ?_, ?_, ?_⟩
      · unfold ERef.write
        rw [if_pos ⟨by rw [hvs2]; exact d4.1, by rw [hvs2]; exact d4.2.1⟩]
        rfl
      · intro i' hi2
        by_cases e : i' = i2
        · subst e
          refine ⟨d', set1_at (set1 s.pX i (some d)) i' _, ?_⟩
          rw [o2]
          refine d4.congr fun x _ _ y _ _ => ?_
          unfold contrib
          beta_reduce
          rw [if_neg (by omega), if_pos ⟨rfl, by omega⟩, zero_add]
          rfl
        · have e5 : set1 (set1 s.pX i (some d)) i2 (some d') i' = set1 s.pX i (some d) i' := by
            unfold set1
            rw [if_neg e]
          by_cases e' : i' = i
          · subst e'
            refine ⟨d, ?_, d2.congr fun x _ _ y _ _ => ?_⟩
            · show set1 (set1 s.pX i' (some d)) i2 (some d') i' = _
              rw [e5]
              exact set1_at s.pX i' _
            · unfold contrib
              beta_reduce
              rw [if_pos rfl, if_neg (by omega), add_zero]
              rfl
          · obtain ⟨v, v1, v2⟩ := hX.1 i' hi2
            have hne : (P.row.onRank r.row).gn i ≠ (P.row.onRank r.row).gn i' := fun e'' => e' (hinj i' hi2 e''.symm)
            have hne3 : (P.col.onRank r.col).gn l ≠ (P.row.onRank r.row).gn i' := fun e'' => by
              rw [← o2] at e''
              refine e ?_
              have h2 := (h.mem_rows hr).1 hi2
              have h3 := (h.mem_rows hr).1 o1
              refine a1.plain.gl_inj h2.1 h3.1 ?_
              rw [← a1.gn_cast h2.1, ← a1.gn_cast h3.1, e'']
            refine ⟨v, ?_, v2.congr fun x _ _ y _ _ => ?_⟩
            · show set1 (set1 s.pX i (some d)) i2 (some d') i' = _
              rw [e5]
              unfold set1
              rw [if_neg e']
              exact v1
            · unfold contrib
              beta_reduce
              rw [if_neg hne, if_neg (by rintro ⟨h1, _⟩; exact hne3 h1), add_zero, add_zero]
      · intro l' l0' l1' l2' l3' hro
        obtain ⟨v, v1, v2⟩ := hX.2 l' l0' l1' l2' l3' hro
        have hne : (P.row.onRank r.row).gn i ≠ (P.col.onRank r.col).gn l' := fun e' => hro (by rw [← e']; exact hgown)
        have hne2 : (P.col.onRank r.col).gn l ≠ (P.col.onRank r.col).gn l' := fun e' => hro (by rw [← e']; exact ho)
        refine ⟨v, v1, v2.congr fun x _ _ y _ _ => ?_⟩
        unfold contrib
        beta_reduce
        rw [if_neg hne, if_neg (by rintro ⟨h1, _⟩; exact hne2 h1), add_zero, add_zero]
    · have ho' : ¬ (P.on r).row.rank_global_tile (((P.col.onRank r.col).gn l : Nat) : Int) = (P.on r).row.rank := ho
      rw [if_neg ho']
      obtain ⟨xu, u1, u2⟩ := hX.2 l l0 l1 l2 (by omega) ho
      obtain ⟨d', d3, d4⟩ := gemm_up_win hpm s2 w2 u2
      have e4 : RbSt.rXt.read l ({ s with pX := set1 s.pX i (some d) } : RbSt K) = some xu := u1
      have hvs2 := h.vtSize_eq hr l0 l1
      rw [e4, Option.bind_some, d3, Option.bind_some]
      refine ⟨set1 s.pX i (some d), set1 s.pXt l (some d'), ?_, ?_, ?_⟩
      · unfold ERef.write
        rw [if_pos ⟨by rw [hvs2]; exact d4.1, by rw [hvs2]; exact d4.2.1⟩]
        rfl
      · intro i' hi2
        by_cases e' : i' = i
        · subst e'
          refine ⟨d, set1_at s.pX i' _, d2.congr fun x _ _ y _ _ => ?_⟩
          unfold contrib
          beta_reduce
          rw [if_pos rfl, if_neg (by omega), add_zero]
          rfl
        · obtain ⟨v, v1, v2⟩ := hX.1 i' hi2
          have hne : (P.row.onRank r.row).gn i ≠ (P.row.onRank r.row).gn i' := fun e'' => e' (hinj i' hi2 e''.symm)
          have hne3 : (P.col.onRank r.col).gn l ≠ (P.row.onRank r.row).gn i' := fun e'' => by
            refine ho ?_
            have h2 := (h.mem_rows hr).1 hi2
            rw [e'', a1.gn_cast h2.1]
            exact a1.plain.gl_own h2.1
          refine ⟨v, ?_, v2.congr fun x _ _ y _ _ => ?_⟩
          · show set1 s.pX i (some d) i' = _
            unfold set1
            rw [if_neg e']
            exact v1
          · unfold contrib
            beta_reduce
            rw [if_neg hne, if_neg (by rintro ⟨h1, _⟩; exact hne3 h1), add_zero, add_zero]
      · intro l' l0' l1' l2' l3' hro
        have hne : (P.row.onRank r.row).gn i ≠ (P.col.onRank r.col).gn l' := fun e' => hro (by rw [← e']; exact hgown)
        by_cases e : l' = l
        · subst e
          refine ⟨d', set1_at s.pXt l' _, d4.congr fun x _ _ y _ _ => ?_⟩
          unfold contrib
          beta_reduce
          rw [if_neg hne, if_pos ⟨rfl, hne⟩, zero_add]
          rfl
        · obtain ⟨v, v1, v2⟩ := hX.2 l' l0' l1' l2' l3' hro
          have hne2 : (P.col.onRank r.col).gn l ≠ (P.col.onRank r.col).gn l' := fun e' => e (by
            refine a2.plain.gl_inj l0' l0 ?_
            rw [← a2.gn_cast l0', ← a2.gn_cast l0, e'])
          refine ⟨v, ?_, v2.congr fun x _ _ y _ _ => ?_⟩
          · show set1 s.pXt l (some d') l' = _
            unfold set1
            rw [if_neg e]
            exact v1
          · unfold contrib
            beta_reduce
            rw [if_neg hne, if_neg (by rintro ⟨h1, _⟩; exact hne2 h1), add_zero, add_zero]

end
end DistRed
end DLAF
