import Verif.Model.Permute
import Verif.Lemmas.Tasks
import Verif.Lemmas.BroadcastPanel
import Verif.Props.IndexVectors
/- Lemmas for the permutations: windows of tiles and the copy of one vector. -/
namespace DLAF
variable {K : Type}

/-! ### local distributions -/

theorem localDist_offset (n nb : Int) : (localDist n nb).local_tile_element_offset = 0 := by
  unfold localDist Dist1.buildLocal Dist1.local_tile_element_offset Dist1.global_tile_element_offset Dist1.normalize
    Dist1.compute_global_nr_tiles
  simp

theorem localDist_tile (n nb : Nat) (x : Nat) :
    (localDist n nb).local_tile_from_local_element x = ((x / nb : Nat) : Int) := by
  unfold Dist1.local_tile_from_local_element
  rw [localDist_offset]
  show Int.tdiv (x + 0) nb = _
  rw [Int.add_zero]
  rfl

theorem localDist_elem (n nb : Nat) (x : Nat) :
    (localDist n nb).tile_element_from_local_element x = ((x % nb : Nat) : Int) := by
  unfold Dist1.tile_element_from_local_element
  rw [localDist_offset]
  unfold util.tile_element_from_element
  show (if (x : Int) + 0 < nb then Int.tmod (x + 0) nb - 0 else Int.tmod (x + 0) nb) = _
  rw [Int.add_zero, Int.sub_zero, ite_self]
  rfl

theorem localDist_nr (n nb : Nat) (hn : 0 < n) :
    (localDist n nb).localNrTiles = (((n + nb - 1) / nb : Nat) : Int) := by
  show (if ((localDist n nb).size > 0) then _ else _) = _
  have hs : (localDist (n : Int) nb).size = n := rfl
  rw [if_pos (by rw [hs]; omega)]
  show Int.tdiv (n + Int.tmod (Int.tmod 0 nb) nb + nb - 1) nb = _
  rw [Int.zero_tmod, Int.zero_tmod, show (n : Int) + 0 + nb - 1 = ((n + nb - 1 : Nat) : Int) by omega]
  rfl

theorem localDist_tsz (n nb t : Nat) : (localDist n nb).local_tile_size_of t = min (nb : Int) (n - t * nb) := by
  unfold Dist1.local_tile_size_of
  rw [localDist_offset]
  have h1 : (localDist (n : Int) nb).tileSize = nb := rfl
  have h2 : (localDist (n : Int) nb).localSize = n := rfl
  rw [h1, h2]
  split
  · rename_i h
    have : t = 0 := by omega
    subst this
    simp
  · omega

/-- Tiles: `t` is one of the tiles of `n` elements in tiles of `nb` iff it starts before `n`. -/
theorem lt_nr_iff {n nb t : Nat} (hb : 0 < nb) : t < (n + nb - 1) / nb ↔ t * nb < n := by
  rw [Nat.lt_iff_add_one_le, Nat.le_div_iff_mul_le hb]
  have : (t + 1) * nb = t * nb + nb := by ring
  rw [this]
  omega

/-! ### coordinates -/

theorem orth_orth' (C : Coord) : C.orth.orth = C := by cases C <;> rfl

@[simp] theorem mk2_get (C : Coord) (x y : Int) : (C.mk2 x y).get C = x := by cases C <;> rfl
@[simp] theorem mk2_get_orth (C : Coord) (x y : Int) : (C.mk2 x y).get C.orth = y := by cases C <;> rfl

theorem mk2_eta (C : Coord) (c : Coord2) : C.mk2 (c.get C) (c.get C.orth) = c := by cases C <;> rfl

theorem add_get (a b : Coord2) (C : Coord) : (a.add b).get C = a.get C + b.get C := by cases C <;> rfl

@[simp] theorem update_sizeAlong (b : Blk K) (C D : Coord) (f : Nat → Nat → K) : (b.update C f).sizeAlong D = b.sizeAlong D := by
  cases C <;> cases D <;> rfl

@[simp] theorem update_elem (b : Blk K) (C : Coord) (f : Nat → Nat → K) (x y : Nat) : (b.update C f).elem C x y = f x y := by
  cases C <;> rfl

/-! ### windows -/

/-- The window of `t` starting at the tile `o` has `n` vectors of `m` elements, in tiles of size `nb` x `nbo`. -/
def WinShape (C : Coord) (n m nb nbo : Nat) (t : Coord2 → Blk K) (o : Coord2) : Prop :=
  ∀ a b : Nat, a * nb < n → b * nbo < m →
    (t (o.add (C.mk2 a b))).sizeAlong C = min nb (n - a * nb) ∧ (t (o.add (C.mk2 a b))).sizeAlong C.orth = min nbo (m - b * nbo)

/-- Element `y` of vector `x` of the window. -/
def winElem (C : Coord) (nb nbo : Nat) (t : Coord2 → Blk K) (o : Coord2) (x y : Nat) : K :=
  (t (o.add (C.mk2 ((x / nb : Nat) : Int) ((y / nbo : Nat) : Int)))).elem C (x % nb) (y % nbo)

/-- Tiles of the window. -/
def InWin (C : Coord) (n m nb nbo : Nat) (o c : Coord2) : Prop :=
  ∃ a b : Nat, a * nb < n ∧ b * nbo < m ∧ c = o.add (C.mk2 a b)

theorem add_mk2_inj {C : Coord} {o : Coord2} {a b a' b' : Nat} (h : o.add (C.mk2 (a : Int) b) = o.add (C.mk2 (a' : Int) b')) :
    a = a' ∧ b = b' := by
  have h1 := congrArg (fun c => c.get C) h
  have h2 := congrArg (fun c => c.get C.orth) h
  simp only [add_get, mk2_get, mk2_get_orth] at h1 h2
  omega

theorem copyVector_spec {C : Coord} {tin tout : Blk K} {xi xo : Nat} (h1 : xi < tin.sizeAlong C) (h2 : xo < tout.sizeAlong C)
    (h3 : tin.sizeAlong C.orth = tout.sizeAlong C.orth) :
    ∃ b, copyVector C tin xi tout xo = some b ∧ b.sizeAlong C = tout.sizeAlong C ∧
      b.sizeAlong C.orth = tout.sizeAlong C.orth ∧
      ∀ x y, y < tout.sizeAlong C.orth → b.elem C x y = if x = xo then tin.elem C xi y else tout.elem C x y := by
  refine ⟨_, if_pos (show _ ∧ _ ∧ _ from ⟨by omega, by omega, by omega⟩), ?_, ?_, ?_⟩
  · rw [update_sizeAlong]
  · rw [update_sizeAlong]
  · intro x y hy
    rw [update_elem]
    by_cases hx : x = xo
    · rw [if_pos hx, if_pos ⟨by omega, by omega⟩, Int.toNat_natCast]
    · rw [if_neg hx, if_neg (by omega)]

theorem irange_zero (n : Nat) : irange 0 (n : Int) = (upto 0 n).map fun i : Nat => (i : Int) := by
  unfold irange upto
  simp [List.range_eq_range']

/-- Copying one vector of the window. -/
theorem applyPermutation_spec {C : Coord} {n m nb nbo : Nat} (hnb : 0 < nb) (hnbo : 0 < nbo) (hm : 0 < m) {xi xo : Nat}
    (hxi : xi < n) (hxo : xo < n) {tin tout : Coord2 → Blk K} {oi oo : Coord2} (hi : WinShape C n m nb nbo tin oi)
    (ho : WinShape C n m nb nbo tout oo) :
    ∃ t, applyPermutation C (localDist n nb) (localDist m nbo).localNrTiles xi xo tin oi tout oo = some t ∧
      WinShape C n m nb nbo t oo ∧ (∀ c, ¬ InWin C n m nb nbo oo c → t c = tout c) ∧
      ∀ x y, x < n → y < m → winElem C nb nbo t oo x y =
        if x = xo then winElem C nb nbo tin oi xi y else winElem C nb nbo tout oo x y := by
  unfold applyPermutation
  rw [localDist_nr m nbo hm, irange_zero, forM'_map]
  have tile_of : ∀ x < n, (x / nb) * nb < n := fun x hx => lt_of_le_of_lt (Nat.div_mul_le_self x nb) hx
  have in_tile : ∀ x < n, x % nb < min nb (n - x / nb * nb) := by
    intro x hx
    have h1 := Nat.mod_lt x hnb
    have h2 := Nat.mod_add_div x nb
    rw [Nat.mul_comm] at h2
    omega
  have key := forM'_inv (n := (m + nbo - 1) / nbo) (S := Coord2 → Blk K)
    (b := fun s (i : Nat) => (fun (s : Coord2 → Blk K) (i_lc : Int) =>
      let ij_in := oi.add (C.mk2 ((localDist n nb).local_tile_from_local_element xi) i_lc)
      let ij_out := oo.add (C.mk2 ((localDist n nb).local_tile_from_local_element xo) i_lc)
      (copyVector C (tin ij_in) ((localDist n nb).tile_element_from_local_element xi)
        (s ij_out) ((localDist n nb).tile_element_from_local_element xo)).map fun b => set1 s ij_out b) s (i : Int))
    (I := fun k t => (∀ c, (∀ b < k, c ≠ oo.add (C.mk2 ((xo / nb : Nat) : Int) (b : Nat))) → t c = tout c) ∧
      ∀ b < k, (t (oo.add (C.mk2 ((xo / nb : Nat) : Int) (b : Nat)))).sizeAlong C = min nb (n - xo / nb * nb) ∧
        (t (oo.add (C.mk2 ((xo / nb : Nat) : Int) (b : Nat)))).sizeAlong C.orth = min nbo (m - b * nbo) ∧
        ∀ x y, y < min nbo (m - b * nbo) → (t (oo.add (C.mk2 ((xo / nb : Nat) : Int) (b : Nat)))).elem C x y =
          if x = xo % nb then (tin (oi.add (C.mk2 ((xi / nb : Nat) : Int) (b : Nat)))).elem C (xi % nb) y
          else (tout (oo.add (C.mk2 ((xo / nb : Nat) : Int) (b : Nat)))).elem C x y)
    (by
      rintro k hk t ⟨h1, h2⟩
      dsimp only
      rw [localDist_tile, localDist_tile, localDist_elem, localDist_elem]
      have hkm : k * nbo < m := (lt_nr_iff hnbo).1 hk
      have heq : t (oo.add (C.mk2 ((xo / nb : Nat) : Int) (k : Nat))) = tout (oo.add (C.mk2 ((xo / nb : Nat) : Int) (k : Nat))) := by
        refine h1 _ fun b hb he => ?_
        have := (add_mk2_inj he).2
        omega
      obtain ⟨a1, a2⟩ := hi (xi / nb) k (tile_of xi hxi) hkm
      obtain ⟨b1, b2⟩ := ho (xo / nb) k (tile_of xo hxo) hkm
      obtain ⟨b, e1, e2, e3, e4⟩ := copyVector_spec (C := C) (tin := tin (oi.add (C.mk2 ((xi / nb : Nat) : Int) (k : Nat))))
        (tout := tout (oo.add (C.mk2 ((xo / nb : Nat) : Int) (k : Nat)))) (xi := xi % nb) (xo := xo % nb)
        (by rw [a1]; exact in_tile xi hxi) (by rw [b1]; exact in_tile xo hxo) (by rw [a2, b2])
      rw [heq, e1]
      refine ⟨set1 t (oo.add (C.mk2 ((xo / nb : Nat) : Int) (k : Nat))) b, rfl, ?_, ?_⟩
      · intro c hc
        rw [set1_ne _ _ (hc k (by omega))]
        exact h1 c fun b hb => hc b (by omega)
      · intro j hj
        by_cases hjk : j = k
        · subst hjk
          rw [set1_same]
          exact ⟨by rw [e2, b1], by rw [e3, b2], fun x y hy => e4 x y (by rw [b2]; exact hy)⟩
        · rw [set1_ne]
          · exact h2 j (by omega)
          · intro he
            exact hjk (add_mk2_inj he).2) (s := tout) ⟨fun _ _ => rfl, by omega⟩
  obtain ⟨t, e, h1, h2⟩ := key
  refine ⟨t, e, ?_, ?_, ?_⟩
  · intro a b ha hb
    by_cases hax : a = xo / nb
    · subst hax
      have := h2 b ((lt_nr_iff hnbo).2 hb)
      exact ⟨this.1, this.2.1⟩
    · rw [h1 _ fun b' _ he => hax (add_mk2_inj he).1]
      exact ho a b ha hb
  · intro c hc
    refine h1 c fun b hb he => hc ⟨xo / nb, b, tile_of xo hxo, (lt_nr_iff hnbo).1 hb, he⟩
  · intro x y hx hy
    unfold winElem
    by_cases hax : x / nb = xo / nb
    · rw [hax]
      have hb : y / nbo * nbo < m := lt_of_le_of_lt (Nat.div_mul_le_self y nbo) hy
      have := (h2 (y / nbo) ((lt_nr_iff hnbo).2 hb)).2.2 (x % nb) (y % nbo) (by
        have h1 := Nat.mod_lt y hnbo
        have h2 := Nat.mod_add_div y nbo
        rw [Nat.mul_comm] at h2
        omega)
      rw [this]
      have hiff : x % nb = xo % nb ↔ x = xo := by
        constructor
        · intro h
          have h3 := Nat.mod_add_div x nb
          have h4 := Nat.mod_add_div xo nb
          rw [hax, h] at h3
          omega
        · intro h; rw [h]
      simp only [hiff]
    · rw [h1 _ fun b' _ he => hax (add_mk2_inj he).1, if_neg (fun h => hax (by rw [h]))]

/-- All the copies of a `bulk`, in any order. -/
theorem bulkPermute_spec {C : Coord} {n m nb nbo : Nat} (hnb : 0 < nb) (hnbo : 0 < nbo) (hm : 0 < m)
    {perm : List Int} {cond : Int → Bool} {tin : Coord2 → Blk K} {oi oo : Coord2} (hi : WinShape C n m nb nbo tin oi) :
    ∀ {order : List Nat} (_ : order.Nodup)
    (_ : ∀ x ∈ order, x < n ∧ ∃ p, perm[x]? = some p ∧ (cond p = true → 0 ≤ p ∧ p < n)) {tout : Coord2 → Blk K}
    (_ : WinShape C n m nb nbo tout oo),
    ∃ t, bulkPermute C (localDist n nb) (localDist m nbo).localNrTiles order perm cond tin oi tout oo = some t ∧
      WinShape C n m nb nbo t oo ∧ (∀ c, ¬ InWin C n m nb nbo oo c → t c = tout c) ∧
      ∀ x y, x < n → y < m →
        (∀ p, x ∈ order → perm[x]? = some p → cond p = true →
          winElem C nb nbo t oo x y = winElem C nb nbo tin oi p.toNat y) ∧
        ((x ∉ order ∨ ∀ p, perm[x]? = some p → cond p = false) →
          winElem C nb nbo t oo x y = winElem C nb nbo tout oo x y)
  | [], _, _, tout, ho => ⟨tout, rfl, ho, fun _ _ => rfl, fun x y _ _ => ⟨fun p h => by simp at h, fun _ => rfl⟩⟩
  | k :: order, hnd, hp, tout, ho => by
    obtain ⟨hk, p, hpk, hpr⟩ := hp k (by simp)
    have hnd' := List.nodup_cons.1 hnd
    unfold bulkPermute
    rw [forM'_cons, hpk, Option.bind_some]
    by_cases hc : cond p = true
    · rw [if_pos hc]
      obtain ⟨p0, p1⟩ := hpr hc
      obtain ⟨q, rfl⟩ := Int.eq_ofNat_of_zero_le p0
      obtain ⟨t1, e1, s1, o1, w1⟩ := applyPermutation_spec hnb hnbo hm (xi := q) (xo := k) (by omega) hk hi ho
      rw [e1, Option.bind_some]
      obtain ⟨t2, e2, s2, o2, w2⟩ := bulkPermute_spec hnb hnbo hm hi hnd'.2 (fun x hx => hp x (by simp [hx])) s1
      refine ⟨t2, e2, s2, fun c hcw => by rw [o2 c hcw, o1 c hcw], fun x y hx hy => ⟨?_, ?_⟩⟩
      · intro p' hmem hp' hcp
        by_cases hxk : x = k
        · subst hxk
          rw [hpk] at hp'
          cases hp'
          rw [(w2 x y hx hy).2 (.inl hnd'.1), w1 x y hx hy, if_pos rfl, Int.toNat_natCast]
        · exact (w2 x y hx hy).1 p' (by simpa [hxk] using hmem) hp' hcp
      · intro h
        have hxk : x ≠ k := by
          rintro rfl
          rcases h with h | h
          · simp at h
          · rw [h _ hpk] at hc; exact absurd hc (by simp)
        rw [(w2 x y hx hy).2, w1 x y hx hy, if_neg hxk]
        rcases h with h | h
        · left
          simp only [List.mem_cons, not_or] at h
          exact h.2
        · exact .inr h
    · rw [if_neg hc, Option.bind_some]
      obtain ⟨t2, e2, s2, o2, w2⟩ := bulkPermute_spec hnb hnbo hm hi hnd'.2 (fun x hx => hp x (by simp [hx])) ho
      refine ⟨t2, e2, s2, o2, fun x y hx hy => ⟨?_, ?_⟩⟩
      · intro p' hmem hp' hcp
        by_cases hxk : x = k
        · subst hxk
          rw [hpk] at hp'
          cases hp'
          exact absurd hcp hc
        · exact (w2 x y hx hy).1 p' (by simpa [hxk] using hmem) hp' hcp
      · intro h
        apply (w2 x y hx hy).2
        rcases h with h | h
        · left
          simp only [List.mem_cons, not_or] at h
          exact h.2
        · exact .inr h

end DLAF
