import Verif.Lemmas.DistRotGeo
import Verif.Lemmas.DistBtProps
/- Distributed Givens rotations: what one process does. -/
namespace DLAF
namespace DistRot
open scoped Classical

/-- A rotation of the columns `o + i`, `o + j` in the rows `o, ..., o + len - 1`. -/
noncomputable def rotG (o len : Nat) (r : Rot) (M : Elems ℝ) : Elems ℝ := fun x y =>
  if o ≤ x ∧ x < o + len then
    (if y = o + r.i then r.c * M x (o + r.i) + r.s * M x (o + r.j)
     else if y = o + r.j then r.c * M x (o + r.j) - r.s * M x (o + r.i) else M x y)
  else M x y

/-- A range of tiles. -/
structure Rng (n nb ib ie len : Nat) : Prop where
  lt : ib < ie
  top : (ie - 1) * nb < n
  len : len = min n (ie * nb) - ib * nb

theorem Rng.bounds {n nb ib ie len : Nat} (R : Rng n nb ib ie len) : ib * nb < n ∧ (0 < nb → 0 < len) ∧ ib * nb + len = min n (ie * nb) ∧
    ib * nb ≤ (ie - 1) * nb ∧ ie * nb = (ie - 1) * nb + nb := by
  have a : ib * nb ≤ (ie - 1) * nb := Nat.mul_le_mul_right _ (by have := R.lt; omega)
  have b : ie * nb = (ie - 1) * nb + nb := by
    have : ie = (ie - 1) + 1 := by have := R.lt; omega
    conv_lhs => rw [this, Nat.add_mul, Nat.one_mul]
  have := R.top
  have := R.len
  omega

theorem split_unique {nb a b x y : Nat} (hx : x < nb) (hy : y < nb) (h : a * nb + x = b * nb + y) : a = b ∧ x = y := by
  have : a = b := by
    by_contra hn
    rcases Nat.lt_or_gt_of_ne hn with q | q
    · have := Nat.mul_le_mul_right nb (show a + 1 ≤ b from q)
      rw [Nat.add_mul] at this; omega
    · have := Nat.mul_le_mul_right nb (show b + 1 ≤ a from q)
      rw [Nat.add_mul] at this; omega
  subst this
  exact ⟨rfl, by omega⟩

section
variable {p : Params} {n nb : Nat} (h : Ax p n nb) {ib ie len : Nat} (R : Rng n nb ib ie len)
include h R

theorem cut_tiles : (p.cut len ib).dist.nrTiles = ((ie - ib : Nat) : Int) := by
  obtain ⟨b1, b2, b3, b4, b5⟩ := R.bounds
  have hp := h.nb_pos
  have hc := h.cut len ib
  rw [hc.nt]
  have key : ∀ t : Nat, t < (len + nb - 1) / nb ↔ t < ie - ib := by
    intro t
    rw [hc.lt_nt]
    constructor
    · intro a
      by_contra hn
      have : (ie - ib) * nb ≤ t * nb := Nat.mul_le_mul_right _ (by omega)
      rw [Nat.sub_mul] at this
      omega
    · intro a
      have : (ib + t) * nb ≤ (ie - 1) * nb := Nat.mul_le_mul_right _ (by omega)
      rw [Nat.add_mul] at this
      have := R.top
      omega
  have a := key (ie - ib)
  have b := key ((len + nb - 1) / nb)
  omega

theorem cut_local : (p.cut len ib).dist.localNrTiles = p.nx ie - p.nx ib := by
  have := (h.cut len ib).plain.nx_all
  rw [cut_tiles h R, h.cut_nx] at this
  rw [← this, show ib + (ie - ib) = ie by have := R.lt; omega]

/-- The rows (or columns) of a local tile in the range. -/
theorem row_iff {i : Int} (hi : 0 ≤ i) (hi' : i < p.dist.localNrTiles) {x : Nat} (hx : x < min nb (n - p.gn i * nb)) {k : Int} (hk : k = (i - p.nx ib) * nb + x) :
    ((0 ≤ k ∧ k < ((p.cut len ib).dist.localSize.toNat : Nat)) ↔ ib * nb ≤ p.gn i * nb + x ∧ p.gn i * nb + x < ib * nb + len) ∧
    (0 ≤ k → p.nx ib + ((k.toNat / nb : Nat) : Int) = i ∧ k.toNat % nb = x) := by
  have hp := h.nb_pos
  have hc := h.cut len ib
  by_cases hl : p.nx ib ≤ i
  · obtain ⟨a, ha⟩ : ∃ a : Nat, i = p.nx ib + a := ⟨(i - p.nx ib).toNat, by omega⟩
    have hg := h.cut_gn len ib a
    rw [← ha] at hg
    have hk' : k = ((a * nb + x : Nat) : Int) := by rw [hk, ha]; push_cast; ring
    have d1 : (a * nb + x) / nb = a := by
      rw [Nat.add_comm, Nat.mul_comm, Nat.add_mul_div_left _ _ hp, Nat.div_eq_of_lt (by omega)]; omega
    have d2 : (a * nb + x) % nb = x := by rw [Nat.add_comm, Nat.add_mul_mod_self_right, Nat.mod_eq_of_lt (by omega)]
    have key := hc.lt_localSize (a * nb + x)
    rw [d1, d2] at key
    subst hk'
    refine ⟨?_, fun _ => ?_⟩
    · have e1 : p.gn i * nb = ib * nb + (p.cut len ib).gn a * nb := by rw [hg, Nat.add_mul]
      have e2 : (a : Int) < (p.cut len ib).dist.localNrTiles ↔ (p.cut len ib).gn a * nb < len := by
        rw [← hc.lt_nt, ← hc.plain.nx_all, hc.plain.lt_nx (Int.natCast_nonneg _) hc.plain.nrTiles_nonneg, hc.nt, ← hc.gn_cast (Int.natCast_nonneg _)]
        omega
      rw [e2] at key
      constructor
      · rintro ⟨_, q⟩
        have := key.1 (by omega)
        omega
      · rintro ⟨_, q⟩
        have := key.2 (by omega)
        omega
    · rw [Int.toNat_natCast, d1, d2]
      exact ⟨ha.symm, rfl⟩
  · have hg : p.gl i < ib := (h.plain.lt_nx hi (Int.natCast_nonneg _)).1 (by omega)
    rw [← h.gn_cast hi] at hg
    have e1 : p.gn i * nb + nb ≤ ib * nb := by
      have : (p.gn i + 1) * nb ≤ ib * nb := Nat.mul_le_mul_right _ (by omega)
      rwa [Nat.add_mul, Nat.one_mul] at this
    have e2 : k < 0 := by
      have : (i - p.nx ib) * (nb : Int) ≤ (-1) * nb := Int.mul_le_mul_of_nonneg_right (by omega) (by omega)
      omega
    refine ⟨⟨fun q => by omega, fun q => by omega⟩, fun q => by omega⟩

/-- The local element `k` of the range. -/
theorem row_at {k : Nat} (hk : k < (p.cut len ib).dist.localSize.toNat) :
    0 ≤ p.nx ib + ((k / nb : Nat) : Int) ∧ p.nx ib + ((k / nb : Nat) : Int) < p.dist.localNrTiles ∧
      k % nb < min nb (n - p.gn (p.nx ib + ((k / nb : Nat) : Int)) * nb) := by
  obtain ⟨b1, b2, b3, b4, b5⟩ := R.bounds
  have hc := h.cut len ib
  obtain ⟨k1, k2⟩ := (hc.lt_localSize k).1 (by omega)
  have h0 := h.plain.nx_nonneg (s := (ib : Int)) (by omega)
  have hcl := cut_local h R
  have hm : p.nx ie ≤ p.dist.localNrTiles := by
    rw [← h.plain.nx_all]
    refine h.plain.nx_mono (by omega) ?_
    have := (h.lt_nt (ie - 1)).2 R.top
    have := R.lt
    rw [h.nt]; omega
  have := Int.natCast_nonneg (k / nb)
  refine ⟨by omega, by omega, ?_⟩
  rw [h.cut_gn len, Nat.add_mul]
  omega

end

section
variable {P : Params2} {n nb : Nat} (h1 : Ax P.row n nb) (h2 : Ax P.col n nb) {ib ie len : Nat} (R : Rng n nb ib ie len) {r : Coord2} (hr : r ∈ P.ranks)
include h1 h2 R hr

/-- The pointer of a column of the range. -/
theorem colPtr_eq {c : Nat} (hc : c < len) (ho : P.col.dist.rank_global_tile ((ib + c / nb : Nat) : Int) = r.col)
    (hR : (P.row.onRank r.row).nx ie ≠ (P.row.onRank r.row).nx ib) :
    colPtr ⟨((P.row.onRank r.row).cut len ib).dist, ((P.col.onRank r.col).cut len ib).dist⟩ ⟨(P.row.onRank r.row).nx ib, (P.col.onRank r.col).nx ib⟩
      ⟨(P.row.onRank r.row).nx ie - (P.row.onRank r.row).nx ib, (P.col.onRank r.col).nx ie - (P.col.onRank r.col).nx ib⟩ c =
      some ⟨⟨(P.row.onRank r.row).nx ib, (P.col.onRank r.col).lc ((ib + c / nb : Nat) : Int)⟩, 0, ((c % nb : Nat) : Int)⟩ := by
  have b1 := Params2.mem_ranks.1 hr .Row
  have b2 := Params2.mem_ranks.1 hr .Col
  have a1 : Ax (P.row.onRank r.row) n nb := h1.onRank b1.1 b1.2
  have a2 : Ax (P.col.onRank r.col) n nb := h2.onRank b2.1 b2.2
  obtain ⟨e1, e2, e3, e4, e5⟩ := R.bounds
  have c1 := a1.cut len ib
  have c2 := a2.cut len ib
  have hp := h1.nb_pos
  have o2 : ((P.col.onRank r.col).cut len ib).dist.rank_global_tile ((c / nb : Nat) : Int) = r.col := by
    rw [a2.cut_rank]; exact ho
  have z : ((P.row.onRank r.row).cut len ib).dist.next_local_tile_from_global_element 0 = 0 := by
    unfold Dist1.next_local_tile_from_global_element
    have := c1.gt 0
    rw [show ((0 : Nat) : Int) = 0 from rfl] at this
    rw [this, Nat.zero_div]
    exact c1.plain.nx_zero
  have y : ((P.col.onRank r.col).cut len ib).dist.next_local_tile_from_global_element c = ((P.col.onRank r.col).cut len ib).nx ((c / nb : Nat) : Int) := by
    unfold Dist1.next_local_tile_from_global_element
    rw [c2.gt]
  have te1 : ((P.row.onRank r.row).cut len ib).dist.tile_element_from_global_element 0 = 0 := by
    have := c1.te 0
    rw [show ((0 : Nat) : Int) = 0 from rfl] at this
    rw [this, Nat.zero_mod]; rfl
  have l1 := a2.plain.lc_nx (t := ((ib + c / nb : Nat) : Int)) (Int.natCast_nonneg _) ho
  have l2 := a2.cut_nx len ib (c / nb)
  obtain ⟨T, hT⟩ : ∃ T, ((P.col.onRank r.col).cut len ib).nx ((c / nb : Nat) : Int) = T := ⟨_, rfl⟩
  have hT0 : 0 ≤ T := by rw [← hT]; exact c2.plain.nx_nonneg (Int.natCast_nonneg _)
  have hT1 : T < (P.col.onRank r.col).nx ie - (P.col.onRank r.col).nx ib := by
    rw [← cut_local a2 R, ← hT, ← c2.plain.lc_nx (Int.natCast_nonneg _) o2]
    refine (c2.plain.lc_bounds (Int.natCast_nonneg _) ?_ o2).2
    rw [c2.nt]
    have := (c2.lt_nt (c / nb)).2 (by have := Nat.div_mul_le_self c nb; omega)
    omega
  have hN : 0 < (P.row.onRank r.row).nx ie - (P.row.onRank r.row).nx ib := by
    have := a1.plain.nx_mono (s := (ib : Int)) (t := (ie : Int)) (by omega) (by have := R.lt; omega)
    omega
  have lin : (⟨((P.row.onRank r.row).cut len ib).dist, ((P.col.onRank r.col).cut len ib).dist⟩ : Distribution).local_tile_linear_index
      ⟨((P.row.onRank r.row).cut len ib).dist.next_local_tile_from_global_element 0, ((P.col.onRank r.col).cut len ib).dist.next_local_tile_from_global_element c⟩
      = T * ((P.row.onRank r.row).nx ie - (P.row.onRank r.row).nx ib) := by
    unfold Distribution.local_tile_linear_index
    dsimp only
    rw [z, y, hT, cut_local a1 R, Int.zero_add]
  unfold colPtr collected
  rw [lin]
  rw [if_pos]
  · dsimp only
    rw [Option.map_some, te1, c2.te, Int.mul_emod_left, Int.add_zero, Int.mul_ediv_cancel _ (by omega)]
    rw [show (P.col.onRank r.col).nx ↑ib + T = (P.col.onRank r.col).lc ((ib + c / nb : Nat) : Int) by rw [l1]; omega]
  · refine ⟨Int.mul_nonneg hT0 (by omega), ?_⟩
    dsimp only
    rw [Int.mul_comm]
    exact Int.mul_lt_mul_of_pos_left hT1 hN

/-- Reading a column. -/
theorem readCol_eq {c : Nat} (hc : c < len) (ho : P.col.dist.rank_global_tile ((ib + c / nb : Nat) : Int) = r.col) {M : Elems ℝ} {s : RotSt}
    (hw : WinAt P n nb n nb r M s.a) :
    ∃ f, readCol (P.on r) ((P.row.onRank r.row).cut len ib).dist.localSize.toNat
        ⟨⟨(P.row.onRank r.row).nx ib, (P.col.onRank r.col).lc ((ib + c / nb : Nat) : Int)⟩, 0, ((c % nb : Nat) : Int)⟩ s = some f ∧
      ∀ k < ((P.row.onRank r.row).cut len ib).dist.localSize.toNat,
        f k = M ((P.row.onRank r.row).gn ((P.row.onRank r.row).nx ib + ((k / nb : Nat) : Int)) * nb + k % nb) (ib * nb + c) := by
  have b1 := Params2.mem_ranks.1 hr .Row
  have b2 := Params2.mem_ranks.1 hr .Col
  have a1 : Ax (P.row.onRank r.row) n nb := h1.onRank b1.1 b1.2
  have a2 : Ax (P.col.onRank r.col) n nb := h2.onRank b2.1 b2.2
  obtain ⟨e1, e2, e3, e4, e5⟩ := R.bounds
  have hp := h1.nb_pos
  have ts : (P.on r).row.tileSize = nb := h1.tile
  have tl : (ib + c / nb) * nb ≤ ib * nb + c := by have := Nat.div_mul_le_self c nb; rw [Nat.add_mul]; omega
  have lb := a2.plain.lc_bounds (t := ((ib + c / nb : Nat) : Int)) (Int.natCast_nonneg _)
    (by rw [a2.nt]; have := (a2.lt_nt (ib + c / nb)).2 (by omega); omega) ho
  have gg : (P.col.onRank r.col).gn ((P.col.onRank r.col).lc ((ib + c / nb : Nat) : Int)) = ib + c / nb := by
    unfold Params.gn
    rw [a2.plain.gl_lc (Int.natCast_nonneg _) ho, Int.toNat_natCast]
  have bl : ∀ k : Nat, below (P.on r).row.tileSize ⟨⟨(P.row.onRank r.row).nx ib, (P.col.onRank r.col).lc ((ib + c / nb : Nat) : Int)⟩, 0, ((c % nb : Nat) : Int)⟩ k =
      (⟨(P.row.onRank r.row).nx ib + ((k / nb : Nat) : Int), (P.col.onRank r.col).lc ((ib + c / nb : Nat) : Int)⟩, ((k % nb : Nat) : Int)) := by
    intro k
    unfold below
    dsimp only
    rw [ts, Int.zero_add, Int.natCast_ediv, Int.natCast_emod]
  have win : ∀ k < ((P.row.onRank r.row).cut len ib).dist.localSize.toNat, _ := fun k hk =>
    hw ((P.row.onRank r.row).nx ib + ((k / nb : Nat) : Int)) ((P.col.onRank r.col).lc ((ib + c / nb : Nat) : Int))
      (row_at a1 R hk).1 (row_at a1 R hk).2.1 lb.1 lb.2
  have cm : c % nb < min nb (n - (ib + c / nb) * nb) := by
    have := Nat.div_add_mod c nb
    have := Nat.mod_lt c hp
    rw [Nat.add_mul, Nat.mul_comm (c / nb)]
    omega
  unfold readCol
  rw [if_pos]
  · refine ⟨_, rfl, fun k hk => ?_⟩
    obtain ⟨w1, w2, w3⟩ := win k hk
    beta_reduce
    rw [bl]
    dsimp only
    rw [Int.toNat_natCast, Int.toNat_natCast, w3 _ (row_at a1 R hk).2.2 _ (by rw [gg]; exact cm), gg]
    congr 1
    have := Nat.div_add_mod c nb
    rw [Nat.add_mul, Nat.mul_comm (c / nb)]
    omega
  · intro k hk
    obtain ⟨w1, w2, w3⟩ := win k hk
    rw [bl]
    dsimp only
    rw [w1, w2, gg]
    exact ⟨(row_at a1 R hk).2.1, by exact_mod_cast (row_at a1 R hk).2.2, by exact_mod_cast cm⟩

/-- Writing a column. -/
theorem writeCol_win {c : Nat} (hc : c < len) (ho : P.col.dist.rank_global_tile ((ib + c / nb : Nat) : Int) = r.col) {M : Elems ℝ} {s : RotSt}
    (hw : WinAt P n nb n nb r M s.a) {f : Nat → ℝ} {g : Nat → ℝ}
    (hf : ∀ k < ((P.row.onRank r.row).cut len ib).dist.localSize.toNat,
      f k = g ((P.row.onRank r.row).gn ((P.row.onRank r.row).nx ib + ((k / nb : Nat) : Int)) * nb + k % nb)) :
    WinAt P n nb n nb r (fun x y => if y = ib * nb + c ∧ ib * nb ≤ x ∧ x < ib * nb + len then g x else M x y)
      (writeCol (P.on r) ((P.row.onRank r.row).cut len ib).dist.localSize.toNat
        ⟨⟨(P.row.onRank r.row).nx ib, (P.col.onRank r.col).lc ((ib + c / nb : Nat) : Int)⟩, 0, ((c % nb : Nat) : Int)⟩ f s).a := by
  have b1 := Params2.mem_ranks.1 hr .Row
  have b2 := Params2.mem_ranks.1 hr .Col
  have a1 : Ax (P.row.onRank r.row) n nb := h1.onRank b1.1 b1.2
  have a2 : Ax (P.col.onRank r.col) n nb := h2.onRank b2.1 b2.2
  have hp := h1.nb_pos
  have ts : (P.on r).row.tileSize = nb := h1.tile
  intro i j hi hi' hj hj'
  obtain ⟨w1, w2, w3⟩ := hw i j hi hi' hj hj'
  refine ⟨w1, w2, fun x hx y hy => ?_⟩
  unfold writeCol
  dsimp only
  rw [ts]
  obtain ⟨k, hk⟩ : ∃ k, k = (i - (P.row.onRank r.row).nx ib) * (nb : Int) + x := ⟨_, rfl⟩
  rw [show (i - (P.row.onRank r.row).nx ib) * (nb : Int) + x - 0 = k by omega]
  obtain ⟨q1, q2⟩ := row_iff a1 R hi hi' hx hk
  have hcol : (j = (P.col.onRank r.col).lc ((ib + c / nb : Nat) : Int) ∧ (y : Int) = ((c % nb : Nat) : Int)) ↔ (P.col.onRank r.col).gn j * nb + y = ib * nb + c := by
    have dm := Nat.div_add_mod c nb
    have ml := Nat.mod_lt c hp
    have gg : (P.col.onRank r.col).gn ((P.col.onRank r.col).lc ((ib + c / nb : Nat) : Int)) = ib + c / nb := by
      unfold Params.gn
      rw [a2.plain.gl_lc (Int.natCast_nonneg _) ho, Int.toNat_natCast]
    constructor
    · rintro ⟨rfl, q⟩
      rw [gg, Nat.add_mul, Nat.mul_comm (c / nb)]
      omega
    · intro q
      have q' : (P.col.onRank r.col).gn j * nb + y = (ib + c / nb) * nb + c % nb := by rw [q, Nat.add_mul, Nat.mul_comm (c / nb)]; omega
      have hy' : y < nb := by omega
      obtain ⟨d1, d2⟩ := split_unique hy' ml q'
      refine ⟨?_, by rw [d2]⟩
      rw [← d1, a2.gn_cast hj, a2.plain.lc_gl hj]
  by_cases hrow : ib * nb ≤ (P.row.onRank r.row).gn i * nb + x ∧ (P.row.onRank r.row).gn i * nb + x < ib * nb + len
  · by_cases hcc : (P.col.onRank r.col).gn j * nb + y = ib * nb + c
    · obtain ⟨k1, k2⟩ := q1.2 hrow
      obtain ⟨c1, c2⟩ := hcol.2 hcc
      rw [if_pos ⟨c1, c2, k1, k2⟩, if_pos ⟨hcc, hrow⟩, hf _ (by omega), (q2 k1).1, (q2 k1).2]
    · rw [if_neg (fun q => hcc (hcol.1 ⟨q.1, q.2.1⟩)), if_neg (fun q => hcc q.1)]
      exact w3 x hx y hy
  · rw [if_neg (fun q => hrow (q1.1 q.2.2)), if_neg (fun q => hrow q.2)]
    exact w3 x hx y hy

end
end DistRot
end DLAF
