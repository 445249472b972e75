import Verif.Lemmas.PermuteDist
/- The distributed permutation: the part before the communication. -/
namespace DLAF
variable {K : Type}

theorem LocalWin.own_len {p : Params} (hp : Plain p) {ib ie : Int} (h0 : 0 ≤ ib) (h1 : ib < ie) (h2 : ie ≤ p.dist.nrTiles)
    {n nb : Nat} {lt0 : Int} (w : LocalWin p ib ie n nb lt0) :
    (ownList (p.ownerSub ib) (p.rangeSize ib ie) p.rank.toNat).length = n := by
  rw [← w.ownList_eq hp h0 h1 h2]; simp

theorem LocalWin.own_getD {p : Params} (hp : Plain p) {ib ie : Int} (h0 : 0 ≤ ib) (h1 : ib < ie) (h2 : ie ≤ p.dist.nrTiles)
    {n nb : Nat} {lt0 : Int} (w : LocalWin p ib ie n nb lt0) {x : Nat} (hx : x < n) :
    (ownList (p.ownerSub ib) (p.rangeSize ib ie) p.rank.toNat).getD x 0 = subOf p ib lt0 nb x := by
  rw [← w.ownList_eq hp h0 h1 h2]; simp [List.getD, hx]

theorem Plain.owner_range {p : Params} (hp : Plain p) {ib ie : Int} (h0 : 0 ≤ ib) (h1 : ib < ie) (h2 : ie ≤ p.dist.nrTiles)
    {s : Nat} (hs : s < p.rangeSize ib ie) :
    p.dist.rank_global_element (p.rangeBegin ib + s) = p.ownerSub ib s ∧ p.ownerSub ib s < p.grid.toNat := by
  obtain ⟨s1, s2⟩ := (hp.rangeSize_spec h0 h1 h2 s).1 hs
  have ht : 0 < p.tile := hp.valid.2.2.1
  have hib : 0 ≤ ib * p.tile := Int.mul_nonneg h0 (Int.le_of_lt ht)
  have hb : p.rangeBegin ib = ib * p.tile := by
    unfold Params.rangeBegin; rw [hp.begin h0]; omega
  have he0 : 0 ≤ p.rangeBegin ib + s := by rw [hb]; omega
  obtain ⟨g1, g2, g3, g4, g5⟩ := C03_global_split hp.valid he0 (by rw [hb]; omega)
  obtain ⟨o, ho1, _, ho3⟩ := C01_tile_owner hp.valid g2 g3
  have hrank := hp.valid.2.2.2.2.2.1
  have h3 := (ho3 p.rank hrank.1 hrank.2).1
  have h4 : p.dist.rank_global_element (p.rangeBegin ib + s) = o := h3
  unfold Params.ownerSub
  rw [h4]
  omega

theorem Plain.range_le {p : Params} (hp : Plain p) {ib ie : Int} (h0 : 0 ≤ ib) (h1 : ib < ie) (h2 : ie ≤ p.dist.nrTiles) :
    0 ≤ p.rangeBegin ib ∧ p.rangeBegin ib + p.rangeSize ib ie ≤ p.size := by
  have ht : 0 < p.tile := hp.valid.2.2.1
  have hib : 0 ≤ ib * p.tile := Int.mul_nonneg h0 (Int.le_of_lt ht)
  have hb : p.rangeBegin ib = ib * p.tile := by
    unfold Params.rangeBegin; rw [hp.begin h0]; omega
  refine ⟨by omega, ?_⟩
  have hlt := (hp.lt_nrTiles h0).1 (show ib < _ by omega)
  by_cases hz : p.rangeSize ib ie = 0
  · omega
  · have := (hp.rangeSize_spec h0 h1 h2 (p.rangeSize ib ie - 1)).1 (by omega)
    omega

theorem copyLocalParts_spec {p : Params} (hp : Plain p) {ib ie : Int} (h0 : 0 ≤ ib) (h1 : ib < ie) (h2 : ie ≤ p.dist.nrTiles)
    {n nb : Nat} {lt0 : Int} (w : LocalWin p ib ie n nb lt0) {gi sub : List Nat}
    (h : ∀ s < p.rangeSize ib ie, gi[(p.rangeBegin ib).toNat + s]? = some (sub.getD s 0)) :
    copyLocalParts p.dist lt0 n gi = some (imgList (p.ownerSub ib) (p.rangeSize ib ie) sub p.rank.toNat) := by
  unfold copyLocalParts imgList
  rw [← w.ownList_eq hp h0 h1 h2, List.map_map, Int.toNat_natCast]
  apply mapOpt_eq_map
  intro x hx
  rw [List.mem_range] at hx
  have hts : p.dist.tileSize = (nb : Int) := w.nb_eq
  dsimp only
  rw [hts, localDist_tile, localDist_elem]
  obtain ⟨a, b, _⟩ := w.sub_spec hp h0 h1 h2 hx
  rw [a]
  have := (hp.range_le h0 h1 h2).1
  rw [show (p.rangeBegin ib + (subOf p ib lt0 nb x : Nat)).toNat = (p.rangeBegin ib).toNat + subOf p ib lt0 nb x by omega]
  exact h _ b

section
variable {C : Coord} {P : Params2}

theorem permutePack_spec {r : Coord2} (hC : Plain (P.at' C r)) (hO : Plain (P.at' C.orth r)) {ib ie : Int} (h0 : 0 ≤ ib)
    (h1 : ib < ie) (e1 : ie ≤ (P.at' C r).dist.nrTiles) (e2 : ie ≤ (P.at' C.orth r).dist.nrTiles) {n nb m nbo : Nat}
    {lt0 lo0 : Int} (w : LocalWin (P.at' C r) ib ie n nb lt0) (wo : LocalWin (P.at' C.orth r) ib ie m nbo lo0)
    {perms junkIndex : List Nat} (hlen : perms.length = (P.at' C r).size) (hj : (P.at' C r).size ≤ junkIndex.length)
    {perm inv : List Nat} (hsub : perm = (perms.drop ((P.at' C r).rangeBegin ib).toNat).take ((P.at' C r).rangeSize ib ie))
    (hperm : C34.IsPerm ((P.at' C r).rangeSize ib ie) perm)
    (hinv : invertIndex perm (junkIndex.take ((P.at' C r).rangeSize ib ie)) = some inv)
    (hi : C34.IsPerm ((P.at' C r).rangeSize ib ie) inv)
    {order : List Nat} (ho : order.Perm (List.range n))
    (junk : Coord2 → Nat → Nat → K) {A : Int → Int → K} {tin : Coord2 → Blk K} (hst : StoresAt P A r tin) :
    (n = 0 ∨ m = 0 → permutePack C P r ib ie perms order junkIndex junk tin = some none) ∧
    (0 < n → 0 < m → ∃ D, permutePack C P r ib ie perms order junkIndex junk tin = some (some D) ∧
      PackSpec C ((P.at' C r).rangeSize ib ie) (P.get C).grid.toNat ((P.at' C r).ownerSub ib) perm inv n m nb nbo
        (fun s y => elemAlong C A ((P.at' C r).rangeBegin ib + s)
          ((P.at' C.orth r).rangeBegin ib + subOf (P.at' C.orth r) ib lo0 nbo y)) (r.get C).toNat D) := by
  have hdC : (P.on r).get C = (P.at' C r).dist := by cases C <;> rfl
  have hdO : (P.on r).get C.orth = (P.at' C.orth r).dist := by cases C <;> rfl
  have hrank : (P.at' C r).rank = r.get C := rfl
  have hbegin : nextLocal (P.on r) ib = C.mk2 lt0 lo0 := by
    have a := w.lt0_eq
    have b := wo.lt0_eq
    cases C
    · exact congrArg₂ Coord2.mk a b
    · exact congrArg₂ Coord2.mk b a
  have hnb : (P.get C).tile = (nb : Int) := w.nb_eq
  have hnbo : (P.get C.orth).tile = (nbo : Int) := wo.nb_eq
  obtain ⟨rb0, rb1⟩ := hC.range_le h0 h1 e1
  obtain ⟨N, hN⟩ : ∃ N, N = (P.at' C r).rangeSize ib ie := ⟨_, rfl⟩
  obtain ⟨o, hoo⟩ : ∃ o, o = (P.at' C r).ownerSub ib := ⟨_, rfl⟩
  have hown := w.own_len hC h0 h1 e1
  rw [hrank] at hown
  have howner : ∀ s < N, (P.at' C r).dist.rank_global_element ((P.at' C r).rangeBegin ib + s) = o s ∧
      o s < (P.get C).grid.toNat := by
    intro s hs
    rw [hoo]
    exact hC.owner_range h0 h1 e1 (by omega)
  have gets := fun x (hx : x < n) => w.own_getD hC h0 h1 e1 hx
  rw [hrank] at gets
  have cp := fun {gi sub : List Nat} => copyLocalParts_spec hC h0 h1 e1 w (gi := gi) (sub := sub)
  rw [hrank] at cp
  rw [← hN] at hsub hperm hinv hi hown gets cp ⊢
  rw [← hoo] at hown gets cp ⊢
  unfold permutePack
  dsimp only
  rw [if_neg (by omega), hdC, hdO, w.n_eq, wo.n_eq]
  constructor
  · intro h
    rw [if_pos (by omega)]
  · intro hn hm
    rw [if_neg (by omega)]
    have hNn : ((P.at' C r).dist.global_tile_element_distance ib ie).toNat = N := by rw [hN]; rfl
    have hrb : (P.at' C r).dist.global_element_from_global_tile_and_tile_element ib 0 = (P.at' C r).rangeBegin ib := rfl
    rw [hNn, hrb, ← hsub, hinv, Option.bind_some, hbegin, mk2_get]
    -- local parts of the permutation
    have hg1 : ∀ s < N, perms[((P.at' C r).rangeBegin ib).toNat + s]? = some (perm.getD s 0) := by
      intro s hs
      have hl : s < perm.length := by rw [hperm.length]; exact hs
      rw [← getElem?_getD hl, hsub, List.getElem?_take, if_pos hs, List.getElem?_drop]
    have hg2 : ∀ s < N, (junkIndex.take ((P.at' C r).rangeBegin ib).toNat ++ inv)[((P.at' C r).rangeBegin ib).toNat + s]? =
        some (inv.getD s 0) := by
      intro s hs
      have hl : s < inv.length := by rw [hi.length]; exact hs
      have hlt : (junkIndex.take ((P.at' C r).rangeBegin ib).toNat).length = ((P.at' C r).rangeBegin ib).toNat := by
        rw [List.length_take]
        omega
      rw [List.getElem?_append_right (by omega), hlt, Nat.add_sub_cancel_left, getElem?_getD hl]
    rw [cp hg1, Option.bind_some, cp hg2]
    -- packing indices
    have hL : ∀ (f : List Nat), C34.IsPerm N f → ∀ l (h : l < (imgList o N f (r.get C).toNat).length),
        (P.at' C r).dist.rank_global_element ((P.at' C r).rangeBegin ib + (imgList o N f (r.get C).toNat)[l]) =
          o ((imgList o N f (r.get C).toNat).getD l 0) ∧ o ((imgList o N f (r.get C).toNat).getD l 0) < (P.get C).grid.toNat := by
      intro f hf l hl
      have hl' : l < (ownList o N (r.get C).toNat).length := by rw [← imgList_length o N f]; exact hl
      have e : (imgList o N f (r.get C).toNat)[l] = (imgList o N f (r.get C).toNat).getD l 0 := by
        rw [List.getD_eq_getElem?_getD, List.getElem?_eq_getElem hl]; rfl
      rw [e, imgList_getD hl']
      obtain ⟨y1, _⟩ := mem_ownList.1 (getD_mem hl')
      have y2 : (ownList o N (r.get C).toNat).getD l 0 < f.length := by rw [hf.length]; exact y1
      exact howner _ (hf.lt (getD_mem y2))
    have hjl : (junkIndex.take n).length = n := by
      rw [List.length_take]
      have h5 : n ≤ N := by
        have := List.length_filter_le (fun s => decide (o s = (r.get C).toNat)) (List.range N)
        rw [List.length_range] at this
        rw [← hown]; exact this
      omega
    obtain ⟨U, u1, u2, u3⟩ := initPackingIndex_fwd (fun l h => (hL perm hperm l h).1) (P.get C).grid.toNat
      (fun l h => (hL perm hperm l h).2) (out := junkIndex.take n) (by rw [hjl, imgList_length, hown])
    obtain ⟨V, v1, v2, v3⟩ := initPackingIndex_back (fun l h => (hL inv hi l h).1) (P.get C).grid.toNat
      (fun l h => (hL inv hi l h).2) (out := junkIndex.take n) (by rw [hjl, imgList_length, hown])
    rw [Int.toNat_natCast, u1, Option.bind_some, Option.bind_some, v1, Option.bind_some, hnb, hnbo]
    rw [imgList_length, hown] at u2 v2
    obtain ⟨shp, elm⟩ := hst.win hC hO h0 h1 e1 e2 w wo
    -- every entry of the packing index is a local index
    have hV : ∀ x < n, ∃ mm, V[x]? = some mm ∧ mm < n := by
      intro x hx
      refine ⟨V[x], List.getElem?_eq_getElem (by omega), ?_⟩
      -- x lies in one of the segments
      obtain ⟨c, hc⟩ : ∃ c, c = cnts (fun l => o ((imgList o N inv (r.get C).toNat).getD l 0))
        (imgList o N inv (r.get C).toNat).length (P.get C).grid.toNat := ⟨_, rfl⟩
      have hseg : ∀ Q, Q ≤ (P.get C).grid.toNat → x < displOf c Q → ∃ q < Q, ∃ k, x = displOf c q + k ∧ k < c.getD q 0 := by
        intro Q
        induction Q with
        | zero => intro _ h; simp [displOf] at h
        | succ Q ih =>
          intro hQ h
          by_cases hx' : x < displOf c Q
          · obtain ⟨q, a, b⟩ := ih (by omega) hx'
            exact ⟨q, by omega, b⟩
          · rw [displOf_succ] at h
            exact ⟨Q, by omega, x - displOf c Q, by omega, by omega⟩
      have htot : displOf c (P.get C).grid.toNat = n := by
        rw [hc, displOf_cnts _ _ _ (Nat.le_refl _), cnts_sum, List.filter_eq_self.2]
        · rw [List.length_range, imgList_length, hown]
        · intro l hl
          rw [List.mem_range] at hl
          exact decide_eq_true (hL inv hi l hl).2
      obtain ⟨q, hq, k, hk, hkc⟩ := hseg _ (Nat.le_refl _) (by rw [htot]; exact hx)
      rw [hc, cnts_getD _ _ _ hq] at hkc
      have h6 := v3 q hq k hkc
      rw [← hc, ← hk] at h6
      have h7 : V[x]? = some V[x] := List.getElem?_eq_getElem (by omega)
      rw [h7] at h6
      have h8 := List.mem_of_getElem? h6.symm
      rw [(sortedCls_perm _ _ _).mem_iff] at h8
      simp only [cls, List.mem_filter, List.mem_range] at h8
      rw [imgList_length, hown] at h8
      exact h8.1
    obtain ⟨t, t1, t2, t3, t4⟩ := bulkPermute_spec (K := K) w.nb_pos wo.nb_pos hm (perm := V.map Int.ofNat) (cond := fun _ => true)
      (oo := ⟨0, 0⟩) shp (ho.nodup_iff.2 List.nodup_range) (by
        intro x hx
        have hx' : x < n := List.mem_range.1 (ho.mem_iff.1 hx)
        obtain ⟨mm, m1, m2⟩ := hV x hx'
        exact ⟨hx', (mm : Int), by rw [List.getElem?_map, m1]; rfl, fun _ => by omega⟩) (newMatrix_shape C junk)
    rw [t1, Option.bind_some]
    refine ⟨_, rfl, rfl, rfl, hown, rfl, rfl, u2, u3, t2, V, v2, v3, ?_⟩
    intro x y mm hy hmm
    have hx : x < n := by
      have := (List.getElem?_eq_some_iff.1 hmm).1
      omega
    have hmn : mm < n := by
      obtain ⟨mm', m1, m2⟩ := hV x hx
      rw [hmm] at m1
      cases m1
      exact m2
    rw [(t4 x y hx hy).1 (mm : Int) (ho.mem_iff.2 (List.mem_range.2 hx)) (by rw [List.getElem?_map, hmm]; rfl) rfl,
      Int.toNat_natCast, elm mm y hmn hy, gets mm hmn]

end

end DLAF
