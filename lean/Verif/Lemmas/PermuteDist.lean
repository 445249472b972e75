import Verif.Lemmas.PermuteRoute
/- The distributed permutation: packing, exchange and unpacking. -/
namespace DLAF
variable {K : Type}

/-! ### segments -/

theorem displOf_succ (c : List Nat) (j : Nat) : displOf c (j + 1) = displOf c j + c.getD j 0 := by
  unfold displOf
  rw [List.take_add_one, List.sum_append]
  by_cases h : j < c.length
  · simp [List.getD, h]
  · simp [List.getD, Nat.le_of_not_lt h]

theorem displOf_mono (c : List Nat) {i j : Nat} (h : i ≤ j) : displOf c i ≤ displOf c j := by
  induction j with
  | zero => have : i = 0 := by omega
            rw [this]
  | succ j ih =>
    by_cases hij : i ≤ j
    · have := ih hij
      rw [displOf_succ]; omega
    · have : i = j + 1 := by omega
      rw [this]

theorem seg_apart {c : List Nat} {i j : Nat} (h : i < j) : displOf c i + c.getD i 0 ≤ displOf c j := by
  rw [← displOf_succ]; exact displOf_mono c h

theorem find_seg {c : List Nat} {R q k : Nat} (hq : q < R) (hk : k < c.getD q 0) :
    ((List.range R).find? fun q' => decide (displOf c q' ≤ displOf c q + k ∧ displOf c q + k < displOf c q' + c.getD q' 0)) =
      some q := by
  rw [List.find?_range_eq_some]
  refine ⟨by simpa using hk, List.mem_range.2 hq, fun j hj => ?_⟩
  have := seg_apart (c := c) hj
  simp only [Bool.not_eq_true', decide_eq_false_iff_not]
  omega

/-! ### what a process has packed -/

/-- What process `q` (along `C`) has computed: `F s y` is element `y` of the vector `s` of the range. -/
structure PackSpec (C : Coord) (N R : Nat) (o : Nat → Nat) (perm inv : List Nat) (n m nb nbo : Nat) (F : Nat → Nat → K)
    (q : Nat) (D : PermData K) : Prop where
  n_eq : D.n = n
  m_eq : D.m = m
  own : (ownList o N q).length = n
  recv : D.recvCounts = cnts (fun l => o ((imgList o N perm q).getD l 0)) (imgList o N perm q).length R
  send : D.sendCounts = cnts (fun l => o ((imgList o N inv q).getD l 0)) (imgList o N inv q).length R
  ulen : D.unpacking.length = n
  unpack : ∀ l < (imgList o N perm q).length, D.unpacking[l]? = some (displOf (cnts (fun l => o ((imgList o N perm q).getD l 0))
      (imgList o N perm q).length R) (o ((imgList o N perm q).getD l 0)) +
      (cls (fun l => o ((imgList o N perm q).getD l 0)) l (o ((imgList o N perm q).getD l 0))).length)
  shape : WinShape C n m nb nbo D.matSend ⟨0, 0⟩
  pack : ∃ Pk : List Nat, Pk.length = n ∧
    (∀ q' < R, ∀ k, k < (cls (fun l => o ((imgList o N inv q).getD l 0)) (imgList o N inv q).length q').length →
      Pk[displOf (cnts (fun l => o ((imgList o N inv q).getD l 0)) (imgList o N inv q).length R) q' + k]? =
        (sortedCls (imgList o N inv q) (fun l => o ((imgList o N inv q).getD l 0)) q')[k]?) ∧
    ∀ x y mm, y < m → Pk[x]? = some mm → winElem C nb nbo D.matSend ⟨0, 0⟩ x y = F ((ownList o N q).getD mm 0) y

theorem newMatrix_size (C : Coord) {n m nb nbo : Nat} (junk : Coord2 → Nat → Nat → K) {a b : Nat} (ha : a * nb < n) (hb : b * nbo < m) :
    (newMatrix C (n : Int) m nb nbo junk (C.mk2 a b)).sizeAlong C = min nb (n - a * nb) ∧
    (newMatrix C (n : Int) m nb nbo junk (C.mk2 a b)).sizeAlong C.orth = min nbo (m - b * nbo) := by
  have h1 : ((localDist (n : Int) nb).local_tile_size_of (a : Int)).toNat = min nb (n - a * nb) := by
    rw [localDist_tsz]; omega
  have h2 : ((localDist (m : Int) nbo).local_tile_size_of (b : Int)).toNat = min nbo (m - b * nbo) := by
    rw [localDist_tsz]; omega
  cases C
  · exact ⟨h1, h2⟩
  · exact ⟨h1, h2⟩

theorem zero_add2 (c : Coord2) : (⟨0, 0⟩ : Coord2).add c = c := by
  unfold Coord2.add; simp

theorem newMatrix_shape (C : Coord) {n m nb nbo : Nat} (junk : Coord2 → Nat → Nat → K) :
    WinShape C n m nb nbo (newMatrix C (n : Int) m nb nbo junk) ⟨0, 0⟩ := by
  intro a b ha hb
  rw [zero_add2]
  exact newMatrix_size C junk ha hb

section
variable {C : Coord} {P : Params2} {N : Nat} {o : Nat → Nat} {perm inv : List Nat} {n m nb nbo : Nat} {F : Nat → Nat → K}

/-- The communication. -/
theorem exchange_spec (hp : C34.IsPerm N perm) (hi : C34.IsPerm N inv)
    (h1 : ∀ i (h : i < perm.length), inv[perm[i]]? = some i) (h2 : ∀ j (h : j < inv.length), perm[inv[j]]? = some j)
    (hnb : (P.get C).tile = nb) (hnbo : (P.get C.orth).tile = nbo) (hb0 : 0 < nb) (hbo0 : 0 < nbo)
    {r : Coord2} (hr0 : 0 ≤ r.get C) (hr1 : r.get C < (P.get C).grid) {me R : Nat} (hme : me = (r.get C).toNat)
    (hR : R = (P.get C).grid.toNat)
    {data : Coord2 → Option (PermData K)} {D : PermData K} (junk : Coord2 → Nat → Nat → K)
    (hD : PackSpec C N R o perm inv n m nb nbo F me D)
    (hdata : ∀ q < R, (data (r.setAlong C q) = none ∧ ownList o N q = []) ∨
      ∃ n' Q, data (r.setAlong C q) = some Q ∧ PackSpec C N R o perm inv n' m nb nbo F q Q) :
    ∃ t, exchange C P data r D junk = some t ∧ WinShape C n m nb nbo t ⟨0, 0⟩ ∧
      ∀ x y, x < n → y < m → o ((imgList o N perm me).getD x 0) < R →
        o ((imgList o N perm me).getD x 0) ≠ me →
        winElem C nb nbo t ⟨0, 0⟩ (D.unpacking.getD x 0) y = F (perm.getD ((ownList o N me).getD x 0) 0) y := by
  have hmeR : me < R := by omega
  have hrecv : ∀ q < R, D.recvCounts.getD q 0 =
      (cls (fun l => o ((imgList o N perm me).getD l 0)) (imgList o N perm me).length q).length := by
    intro q hq
    rw [hD.recv, cnts_getD _ _ _ hq]
  unfold exchange
  dsimp only
  rw [← hme, ← hR]
  refine ⟨_, if_pos ?_, ?_, ?_⟩
  · intro q hq hne
    rw [List.mem_range] at hq
    rw [hrecv q hq, route_counts hp hi h1 h2]
    rcases hdata q hq with ⟨e1, e2⟩ | ⟨n', Q, e1, e2⟩
    · rw [e1]
      have : imgList o N inv q = [] := by unfold imgList; rw [e2]; rfl
      rw [this]
      exact ⟨rfl, fun h => absurd rfl h⟩
    · rw [e1]
      refine ⟨?_, fun _ => ?_⟩
      · show Q.sendCounts.getD me 0 = _
        rw [e2.send, cnts_getD _ _ _ hmeR]
      · show Q.m = D.m
        rw [e2.m_eq, hD.m_eq]
  · intro a b ha hb
    rw [zero_add2, hnb, hnbo, hD.n_eq, hD.m_eq]
    simp only [update_sizeAlong]
    exact newMatrix_size C junk ha hb
  · intro x y hx hy hlt hne
    obtain ⟨q, hq⟩ : ∃ q, q = o ((imgList o N perm me).getD x 0) := ⟨_, rfl⟩
    rw [← hq] at hlt hne
    rcases hdata q hlt with ⟨e1, e2⟩ | ⟨n', Q, e1, e2⟩
    · -- nobody sends an empty class
      exfalso
      have hpos := filter_range_pos (fun l => decide (o ((imgList o N perm me).getD l 0) = q))
        (n := (imgList o N perm me).length) (l := x) (by rw [imgList_length, hD.own]; exact hx) (by simpa using hq.symm)
      have hc := route_counts hp hi h1 h2 o me q
      have hz : imgList o N inv q = [] := by unfold imgList; rw [e2]; rfl
      rw [hz] at hc
      have hempty : cls (fun l => o ((imgList o N perm me).getD l 0)) (imgList o N perm me).length q = [] :=
        List.eq_nil_of_length_eq_zero hc
      have hpos' : (cls (fun l => o ((imgList o N perm me).getD l 0)) (imgList o N perm me).length q)[
        ((List.range x).filter fun l => decide (o ((imgList o N perm me).getD l 0) = q)).length]? = some x := hpos
      rw [hempty] at hpos'
      simp at hpos'
    · obtain ⟨Pk, pl, hP, hW⟩ := e2.pack
      obtain ⟨k, mm, u1, u2, u3, u4, u5⟩ := route hp hi h1 h2 o R me q hmeR hD.unpack hP
        (x := x) (by rw [hD.own]; exact hx) hq.symm
      have hX : D.unpacking.getD x 0 = displOf D.recvCounts q + k := by
        rw [List.getD_eq_getElem?_getD, u1, hD.recv]; rfl
      rw [hX]
      obtain ⟨X, hXX⟩ : ∃ X, X = displOf D.recvCounts q + k := ⟨_, rfl⟩
      rw [← hXX]
      unfold winElem
      rw [zero_add2, update_elem]
      rw [hnb, hnbo, mk2_get, mk2_get_orth]
      have c1 : X % nb + (((X / nb : Nat) : Int) * (nb : Int)).toNat = X := by
        rw [← Int.natCast_mul, Int.toNat_natCast]
        have := Nat.mod_add_div X nb
        rw [Nat.mul_comm] at this
        exact this
      have c2 : y % nbo + (((y / nbo : Nat) : Int) * (nbo : Int)).toNat = y := by
        rw [← Int.natCast_mul, Int.toNat_natCast]
        have := Nat.mod_add_div y nbo
        rw [Nat.mul_comm] at this
        exact this
      rw [c1, c2, hXX, find_seg hlt (by rw [hrecv q hlt]; exact u2)]
      dsimp only
      rw [if_neg hne, e1]
      dsimp only
      rw [Nat.add_sub_cancel_left, e2.send]
      have := hW _ y mm hy u3
      unfold winElem at this
      rw [zero_add2] at this
      unfold flatElem
      rw [Int.toNat_natCast, Int.toNat_natCast]
      rw [show ∀ z w : Nat, ((z : Int) / (w : Int)) = ((z / w : Nat) : Int) from fun z w => rfl,
        show ∀ z w : Nat, ((z : Int) / (w : Int)) = ((z / w : Nat) : Int) from fun z w => rfl, this, u5]

/-- Unpacking. -/
theorem permuteUnpack_spec (hp : C34.IsPerm N perm) (hi : C34.IsPerm N inv)
    (h1 : ∀ i (h : i < perm.length), inv[perm[i]]? = some i) (h2 : ∀ j (h : j < inv.length), perm[inv[j]]? = some j)
    (hnb : (P.get C).tile = nb) (hnbo : (P.get C.orth).tile = nbo) (hb0 : 0 < nb) (hbo0 : 0 < nbo) (hm : 0 < m)
    {r : Coord2} (hr0 : 0 ≤ r.get C) (hr1 : r.get C < (P.get C).grid) {me R : Nat} (hme : me = (r.get C).toNat)
    (hR : R = (P.get C).grid.toNat) (hoR : ∀ s < N, o s < (P.get C).grid.toNat)
    {data : Coord2 → Option (PermData K)} {D : PermData K} (junk : Coord2 → Nat → Nat → K)
    (hD : PackSpec C N R o perm inv n m nb nbo F me D)
    (hdata : ∀ q < R, (data (r.setAlong C q) = none ∧ ownList o N q = []) ∨
      ∃ n' Q, data (r.setAlong C q) = some Q ∧ PackSpec C N R o perm inv n' m nb nbo F q Q)
    (ib : Int) {order1 order2 : List Nat} (ho1 : order1.Perm (List.range n)) (ho2 : order2.Perm (List.range n))
    {tout : Coord2 → Blk K} (hout : WinShape C n m nb nbo tout (nextLocal (P.on r) ib)) :
    ∃ t, permuteUnpack C P r ib order1 order2 data D junk tout = some t ∧
      WinShape C n m nb nbo t (nextLocal (P.on r) ib) ∧
      (∀ c, ¬ InWin C n m nb nbo (nextLocal (P.on r) ib) c → t c = tout c) ∧
      ∀ x y, x < n → y < m → winElem C nb nbo t (nextLocal (P.on r) ib) x y =
        F (perm.getD ((ownList o N me).getD x 0) 0) y := by
  obtain ⟨tr, er, sr, wr⟩ := exchange_spec hp hi h1 h2 hnb hnbo hb0 hbo0 hr0 hr1 hme hR junk hD hdata
  have hmeR : me < R := by omega
  unfold permuteUnpack
  dsimp only
  rw [← hme, hnb, hnbo, hD.n_eq, hD.m_eq]
  obtain ⟨a, ha⟩ : ∃ a, a = displOf D.sendCounts me := ⟨_, rfl⟩
  obtain ⟨ar, har⟩ : ∃ a, a = displOf D.recvCounts me := ⟨_, rfl⟩
  obtain ⟨cs, hcs⟩ : ∃ a, a = D.sendCounts.getD me 0 := ⟨_, rfl⟩
  obtain ⟨cr, hcr⟩ : ∃ a, a = D.recvCounts.getD me 0 := ⟨_, rfl⟩
  have hcc : cs = cr := by
    rw [hcs, hcr, hD.send, hD.recv, cnts_getD _ _ _ hmeR, cnts_getD _ _ _ hmeR, route_counts hp hi h1 h2]
  rw [← ha, ← har, ← hcs, ← hcr]
  have hlen : (imgList o N perm me).length = n := by rw [imgList_length, hD.own]
  -- where the vectors come from
  have src : ∀ x < n, o ((imgList o N perm me).getD x 0) < R := by
    intro x hx
    have hx' : x < (ownList o N me).length := by rw [hD.own]; exact hx
    rw [imgList_getD hx']
    rw [hR]
    apply hoR
    obtain ⟨y1, _⟩ := mem_ownList.1 (getD_mem hx')
    have y2 : (ownList o N me).getD x 0 < perm.length := by rw [hp.length]; exact y1
    exact hp.lt (getD_mem y2)
  have ux : ∀ x < n, ∃ k, D.unpacking[x]? = some (displOf D.recvCounts (o ((imgList o N perm me).getD x 0)) + k) ∧
      k < D.recvCounts.getD (o ((imgList o N perm me).getD x 0)) 0 := by
    intro x hx
    refine ⟨_, by rw [hD.recv]; exact hD.unpack x (by omega), ?_⟩
    rw [hD.recv, cnts_getD _ _ _ (src x hx)]
    have hpos := filter_range_pos (fun l => decide (o ((imgList o N perm me).getD l 0) = o ((imgList o N perm me).getD x 0)))
      (n := (imgList o N perm me).length) (l := x) (by omega) (by simp)
    exact (List.getElem?_eq_some_iff.1 hpos).1
  have loc_iff : ∀ x < n, ∀ u, D.unpacking[x]? = some u → (ar ≤ u ∧ u < ar + cr ↔ o ((imgList o N perm me).getD x 0) = me) := by
    intro x hx u hu
    obtain ⟨k, k1, k2⟩ := ux x hx
    rw [k1] at hu
    cases hu
    generalize o ((imgList o N perm me).getD x 0) = q at *
    constructor
    · rintro ⟨a1, a2⟩
      rcases Nat.lt_trichotomy q me with h | h | h
      · have := seg_apart (c := D.recvCounts) h; omega
      · exact h
      · have := seg_apart (c := D.recvCounts) h; omega
    · rintro rfl
      omega
  have hmem : ∀ {order : List Nat}, order.Perm (List.range n) → ∀ x, x ∈ order ↔ x < n := by
    intro order h x; rw [h.mem_iff, List.mem_range]
  have hnd : ∀ {order : List Nat}, order.Perm (List.range n) → order.Nodup := fun h => h.nodup_iff.2 List.nodup_range
  have hsum : a + cs ≤ n := by
    rw [ha, hcs, hD.send, displOf_cnts _ _ _ (Nat.le_of_lt hmeR), cnts_getD _ _ _ hmeR]
    have := cnts_sum_le (fun l => o ((imgList o N inv me).getD l 0)) (imgList o N inv me).length me
    rw [imgList_length, hD.own] at this
    rw [imgList_length, hD.own]
    exact this
  obtain ⟨t1, f1, f2, f3, f4⟩ := bulkPermute_spec (K := K) hb0 hbo0 hm (perm := D.unpacking.map fun p : Nat => (p : Int) + ((a : Int) - ar))
    (cond := fun p => decide ((a : Int) ≤ p ∧ p < ((a + cs : Nat) : Int))) (oo := nextLocal (P.on r) ib) hD.shape (hnd ho1) (by
      intro x hx
      have hx' := (hmem ho1 x).1 hx
      obtain ⟨k, k1, k2⟩ := ux x hx'
      refine ⟨hx', ((displOf D.recvCounts (o ((imgList o N perm me).getD x 0)) + k : Nat) : Int) + ((a : Int) - ar),
        by rw [List.getElem?_map, k1]; rfl, ?_⟩
      intro hc
      simp only [decide_eq_true_eq] at hc
      omega) hout
  rw [show (fun p : Int => decide ((a : Int) ≤ p ∧ p < ((a + cs : Nat) : Int))) =
    (fun p : Int => decide ((a : Int) ≤ p ∧ p < (a + cs : Nat))) from rfl] at f1
  have hrsum : ∀ x < n, ∀ u, D.unpacking[x]? = some u → u < n := by
    intro x hx u hu
    obtain ⟨k, k1, k2⟩ := ux x hx
    rw [k1] at hu
    cases hu
    have hq := src x hx
    rw [hD.recv] at k2 ⊢
    rw [cnts_getD _ _ _ hq] at k2
    rw [displOf_cnts _ _ _ (Nat.le_of_lt hq)]
    have := cnts_sum_le (fun l => o ((imgList o N perm me).getD l 0)) (imgList o N perm me).length (o ((imgList o N perm me).getD x 0))
    rw [hlen] at this k2
    rw [hlen]
    omega
  obtain ⟨t2, g1, g2, g3, g4⟩ := bulkPermute_spec (K := K) hb0 hbo0 hm (perm := D.unpacking.map Int.ofNat)
    (cond := fun p => decide (p < (ar : Int) ∨ ((ar + cr : Nat) : Int) ≤ p)) (oo := nextLocal (P.on r) ib) sr (hnd ho2) (by
      intro x hx
      have hx' := (hmem ho2 x).1 hx
      obtain ⟨k, k1, k2⟩ := ux x hx'
      refine ⟨hx', _, by rw [List.getElem?_map, k1]; rfl, ?_⟩
      intro _
      have := hrsum x hx' _ k1
      exact ⟨Int.natCast_nonneg _, Int.ofNat_lt.2 this⟩) f2
  rw [f1, Option.bind_some, er, Option.bind_some]
  refine ⟨t2, g1, g2, fun c hc => by rw [g3 c hc, f3 c hc], fun x y hx hy => ?_⟩
  obtain ⟨k, k1, k2⟩ := ux x hx
  obtain ⟨u, hu⟩ : ∃ u, u = displOf D.recvCounts (o ((imgList o N perm me).getD x 0)) + k := ⟨_, rfl⟩
  rw [← hu] at k1
  by_cases hq : o ((imgList o N perm me).getD x 0) = me
  · have hl := (loc_iff x hx u k1).2 hq
    rw [(g4 x y hx hy).2 (.inr (by
      intro p hp'
      rw [List.getElem?_map, k1] at hp'
      cases hp'
      simp only [decide_eq_false_iff_not, Int.ofNat_eq_natCast]
      omega))]
    rw [(f4 x y hx hy).1 ((u : Int) + ((a : Int) - ar)) ((hmem ho1 x).2 hx) (by rw [List.getElem?_map, k1]; rfl)
      (by simp only [decide_eq_true_eq]; omega)]
    obtain ⟨Pk, pl, hP, hW⟩ := hD.pack
    obtain ⟨k', mm, u1, u2, u3, u4, u5⟩ := route hp hi h1 h2 o R me me hmeR hD.unpack hP
      (x := x) (by rw [hD.own]; exact hx) hq
    rw [k1] at u1
    have hk' : u = ar + k' := by
      rw [har, hD.recv]; exact Option.some.inj u1
    rw [show ((u : Int) + ((a : Int) - ar)).toNat = a + k' by omega, ha, hD.send, hW _ y mm hy u3, u5]
  · have hl := mt (loc_iff x hx u k1).1 hq
    rw [(g4 x y hx hy).1 (u : Int) ((hmem ho2 x).2 hx) (by rw [List.getElem?_map, k1]; rfl)
      (by simp only [decide_eq_true_eq]; omega)]
    have := wr x y hx hy (src x hx) hq
    rw [List.getD_eq_getElem?_getD, k1] at this
    exact this

end

end DLAF
