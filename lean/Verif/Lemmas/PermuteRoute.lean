import Verif.Lemmas.Window
import Verif.Props.Norm
import Verif.Spec.Permute
/- Permutations: which vector of which process arrives where, and windows of stored matrices. -/
namespace DLAF
variable {K : Type}

/-- The sub-matrix indices `f s` for the indices `s` owned by `r`. -/
def imgList (o : Nat → Nat) (N : Nat) (f : List Nat) (r : Nat) : List Nat := (ownList o N r).map fun s => f.getD s 0

theorem imgList_length (o : Nat → Nat) (N : Nat) (f : List Nat) (r : Nat) : (imgList o N f r).length = (ownList o N r).length := by
  simp [imgList]

theorem imgList_getD {o : Nat → Nat} {N : Nat} {f : List Nat} {r l : Nat} (hl : l < (ownList o N r).length) :
    (imgList o N f r).getD l 0 = f.getD ((ownList o N r).getD l 0) 0 := by
  simp [imgList, List.getD, hl]

theorem getD_mem {l : List Nat} {k : Nat} (hk : k < l.length) : l.getD k 0 ∈ l := by
  simp [List.getD, hk]

theorem getElem?_getD {l : List Nat} {k : Nat} (hk : k < l.length) : l[k]? = some (l.getD k 0) := by
  simp [List.getD, hk]

section route
variable {N : Nat} {perm inv : List Nat} (hp : C34.IsPerm N perm) (hi : C34.IsPerm N inv)
    (h1 : ∀ i (h : i < perm.length), inv[perm[i]]? = some i) (h2 : ∀ j (h : j < inv.length), perm[inv[j]]? = some j)
    (o : Nat → Nat) (R r q : Nat)
include hp hi h1 h2

theorem route_counts :
    (cls (fun l => o ((imgList o N perm r).getD l 0)) (imgList o N perm r).length q).length =
      (cls (fun l => o ((imgList o N inv q).getD l 0)) (imgList o N inv q).length r).length := by
  have := congrArg List.length (pairing hp hi h1 h2 o r q)
  simp only [List.length_map, sortedCls_length] at this
  simpa [imgList] using this

theorem route (hr : r < R) {U Pk : List Nat}
    (hU : ∀ l < (imgList o N perm r).length, U[l]? = some (displOf (cnts (fun l => o ((imgList o N perm r).getD l 0))
      (imgList o N perm r).length R) (o ((imgList o N perm r).getD l 0)) +
      (cls (fun l => o ((imgList o N perm r).getD l 0)) l (o ((imgList o N perm r).getD l 0))).length))
    (hP : ∀ q' < R, ∀ k, k < (cls (fun l => o ((imgList o N inv q).getD l 0)) (imgList o N inv q).length q').length →
      Pk[displOf (cnts (fun l => o ((imgList o N inv q).getD l 0)) (imgList o N inv q).length R) q' + k]? =
        (sortedCls (imgList o N inv q) (fun l => o ((imgList o N inv q).getD l 0)) q')[k]?)
    {x : Nat} (hx : x < (ownList o N r).length) (hxq : o ((imgList o N perm r).getD x 0) = q) :
    ∃ k m, U[x]? = some (displOf (cnts (fun l => o ((imgList o N perm r).getD l 0)) (imgList o N perm r).length R) q + k) ∧
      k < (cls (fun l => o ((imgList o N perm r).getD l 0)) (imgList o N perm r).length q).length ∧
      Pk[displOf (cnts (fun l => o ((imgList o N inv q).getD l 0)) (imgList o N inv q).length R) r + k]? = some m ∧
      m < (ownList o N q).length ∧ (ownList o N q).getD m 0 = perm.getD ((ownList o N r).getD x 0) 0 := by
  have hlr := imgList_length o N perm r
  have hlq := imgList_length o N inv q
  have hpos := filter_range_pos (fun l => decide (o ((imgList o N perm r).getD l 0) = q)) (n := (imgList o N perm r).length)
    (l := x) (by omega) (by simpa using hxq)
  obtain ⟨k, hk⟩ : ∃ k, k = (cls (fun l => o ((imgList o N perm r).getD l 0)) x q).length := ⟨_, rfl⟩
  have hpos' : (cls (fun l => o ((imgList o N perm r).getD l 0)) (imgList o N perm r).length q)[k]? = some x := by
    rw [hk]; exact hpos
  have hkl : k < (cls (fun l => o ((imgList o N perm r).getD l 0)) (imgList o N perm r).length q).length :=
    (List.getElem?_eq_some_iff.1 hpos').1
  have hkl' := hkl
  rw [route_counts hp hi h1 h2 o r q] at hkl'
  have hpair := congrArg (fun l => l[k]?) (pairing hp hi h1 h2 o r q)
  have hks : k < (sortedCls (imgList o N inv q) (fun l => o ((imgList o N inv q).getD l 0)) r).length := by
    rw [sortedCls_length]; exact hkl'
  obtain ⟨m, hm⟩ : ∃ m, (sortedCls (imgList o N inv q) (fun l => o ((imgList o N inv q).getD l 0)) r)[k]? = some m :=
    ⟨_, List.getElem?_eq_getElem hks⟩
  have hmm : m ∈ sortedCls (imgList o N inv q) (fun l => o ((imgList o N inv q).getD l 0)) r :=
    List.mem_of_getElem? hm
  rw [(sortedCls_perm _ _ _).mem_iff] at hmm
  have hml : m < (ownList o N q).length := by
    simp only [cls, List.mem_filter, List.mem_range] at hmm
    omega
  refine ⟨k, m, ?_, hkl, by rw [hP r hr k hkl', hm], hml, ?_⟩
  · rw [hU x (by omega), hxq, hk]
  · rw [List.getElem?_map, List.getElem?_map] at hpair
    have e1 : (cls (fun l => o ((List.map (fun s => perm.getD s 0) (ownList o N r)).getD l 0))
      (List.map (fun s => perm.getD s 0) (ownList o N r)).length q)[k]? = some x := hpos'
    have e2 : (sortedCls (List.map (fun s => inv.getD s 0) (ownList o N q))
      (fun m => o ((List.map (fun s => inv.getD s 0) (ownList o N q)).getD m 0)) r)[k]? = some m := hm
    rw [e1, e2] at hpair
    simp only [Option.map_some, Option.some.injEq] at hpair
    have e3 := imgList_getD (f := inv) hml
    rw [show (imgList o N inv q).getD m 0 = (ownList o N r).getD x 0 from hpair.symm] at e3
    rw [e3]
    obtain ⟨y1, _⟩ := mem_ownList.1 (getD_mem hml)
    have y2 : (ownList o N q).getD m 0 < inv.length := by rw [hi.length]; exact y1
    have := h2 _ y2
    have e4 : inv.getD ((ownList o N q).getD m 0) 0 = inv[(ownList o N q).getD m 0] := by
      rw [List.getD_eq_getElem?_getD, List.getElem?_eq_getElem y2]; rfl
    rw [e4]
    generalize (ownList o N q).getD m 0 = z at *
    rw [List.getD, this]; rfl

end route

/-! ### windows of a stored matrix -/

theorem storesElems_iff {P : Params2} {A : Int → Int → K} {t : Coord2 → Coord2 → Blk K} :
    StoresElems P A t ↔ ∀ r ∈ P.ranks, StoresAt P A r (t r) := Iff.rfl

theorem storesAt_along (C : Coord) {P : Params2} {A : Int → Int → K} {r : Coord2} {t : Coord2 → Blk K} :
    StoresAt P A r t ↔ ∀ li lj : Nat, (li : Int) < (P.at' C r).dist.localNrTiles →
      (lj : Int) < (P.at' C.orth r).dist.localNrTiles →
      ((t (C.mk2 li lj)).sizeAlong C : Int) =
        (P.at' C r).dist.global_tile_size_of ((P.at' C r).dist.global_tile_from_local_tile li) ∧
      ((t (C.mk2 li lj)).sizeAlong C.orth : Int) =
        (P.at' C.orth r).dist.global_tile_size_of ((P.at' C.orth r).dist.global_tile_from_local_tile lj) ∧
      ∀ a b : Nat, a < (t (C.mk2 li lj)).sizeAlong C → b < (t (C.mk2 li lj)).sizeAlong C.orth →
        (t (C.mk2 li lj)).elem C a b = elemAlong C A
          ((P.at' C r).tileBegin ((P.at' C r).dist.global_tile_from_local_tile li) + a)
          ((P.at' C.orth r).tileBegin ((P.at' C.orth r).dist.global_tile_from_local_tile lj) + b) := by
  cases C
  · exact Iff.rfl
  · constructor
    · intro h li lj hi hj
      obtain ⟨a, b, c⟩ := h lj li hj hi
      exact ⟨b, a, fun x y hx hy => c y x hy hx⟩
    · intro h li lj hi hj
      obtain ⟨a, b, c⟩ := h lj li hj hi
      exact ⟨b, a, fun x y hx hy => c y x hy hx⟩

/-- A window of a stored matrix. -/
theorem StoresAt.win {C : Coord} {P : Params2} {A : Int → Int → K} {r : Coord2} {t : Coord2 → Blk K} (h : StoresAt P A r t)
    (hC : Plain (P.at' C r)) (hO : Plain (P.at' C.orth r)) {ib ie : Int} (h0 : 0 ≤ ib) (h1 : ib < ie)
    (e1 : ie ≤ (P.at' C r).dist.nrTiles) (e2 : ie ≤ (P.at' C.orth r).dist.nrTiles) {n nb m nbo : Nat} {lt0 lo0 : Int}
    (w : LocalWin (P.at' C r) ib ie n nb lt0) (wo : LocalWin (P.at' C.orth r) ib ie m nbo lo0) :
    WinShape C n m nb nbo t (C.mk2 lt0 lo0) ∧ ∀ x y, x < n → y < m → winElem C nb nbo t (C.mk2 lt0 lo0) x y =
      elemAlong C A ((P.at' C r).rangeBegin ib + subOf (P.at' C r) ib lt0 nb x)
        ((P.at' C.orth r).rangeBegin ib + subOf (P.at' C.orth r) ib lo0 nbo y) := by
  rw [storesAt_along C] at h
  have hadd : ∀ a b : Nat, (C.mk2 lt0 lo0).add (C.mk2 a b) = C.mk2 (lt0 + a) (lo0 + b) := by
    intro a b
    cases C <;> rfl
  have hn : ∀ a : Nat, (((lt0 + a).toNat : Nat) : Int) = lt0 + a := fun a => by have := w.lt0_nonneg; omega
  have hno : ∀ a : Nat, (((lo0 + a).toNat : Nat) : Int) = lo0 + a := fun a => by have := wo.lt0_nonneg; omega
  have shape : WinShape C n m nb nbo t (C.mk2 lt0 lo0) := by
    intro a b ha hb
    obtain ⟨r1, r2, r3, r4, r5⟩ := w.range a ha
    obtain ⟨s1, s2, s3, s4, s5⟩ := wo.range b hb
    obtain ⟨x1, x2, x3⟩ := h (lt0 + a).toNat (lo0 + b).toNat (by rw [hn]; exact r1) (by rw [hno]; exact s1)
    rw [hn, hno, r5] at x1
    rw [hn, hno, s5] at x2
    rw [hadd]
    exact ⟨Int.ofNat_inj.1 x1, Int.ofNat_inj.1 x2⟩
  refine ⟨shape, fun x y hx hy => ?_⟩
  have ha : x / nb * nb < n := lt_of_le_of_lt (Nat.div_mul_le_self x nb) hx
  have hb : y / nbo * nbo < m := lt_of_le_of_lt (Nat.div_mul_le_self y nbo) hy
  obtain ⟨r1, r2, r3, r4, r5⟩ := w.range _ ha
  obtain ⟨s1, s2, s3, s4, s5⟩ := wo.range _ hb
  obtain ⟨z1, z2⟩ := shape _ _ ha hb
  obtain ⟨x1, x2, x3⟩ := h (lt0 + (x / nb : Nat)).toNat (lo0 + (y / nbo : Nat)).toNat (by rw [hn]; exact r1) (by rw [hno]; exact s1)
  rw [hn, hno] at x3
  unfold winElem
  have i1 := (w.sub_spec hC h0 h1 e1 hx).1
  have i2 := (wo.sub_spec hO h0 h1 e2 hy).1
  rw [hadd] at z1 z2 ⊢
  have l1 := Nat.mod_add_div x nb
  have l2 := Nat.mod_add_div y nbo
  rw [Nat.mul_comm] at l1 l2
  have l3 := Nat.mod_lt x w.nb_pos
  have l4 := Nat.mod_lt y wo.nb_pos
  rw [x3 _ _ (by rw [z1]; omega) (by rw [z2]; omega), ← i1, ← i2]
  rw [hC.begin (by omega), hO.begin (by omega), hC.tileBegin (by omega), hO.tileBegin (by omega)]

/-- Replacing the window of a stored matrix. -/
theorem StoresAt.replace {C : Coord} {P : Params2} {B0 B : Int → Int → K} {r : Coord2} {t0 t : Coord2 → Blk K}
    (h : StoresAt P B0 r t0)
    (hC : Plain (P.at' C r)) (hO : Plain (P.at' C.orth r)) {ib ie : Int} (h0 : 0 ≤ ib) (h1 : ib < ie)
    (e1 : ie ≤ (P.at' C r).dist.nrTiles) (e2 : ie ≤ (P.at' C.orth r).dist.nrTiles) {n nb m nbo : Nat} {lt0 lo0 : Int}
    (w : LocalWin (P.at' C r) ib ie n nb lt0) (wo : LocalWin (P.at' C.orth r) ib ie m nbo lo0)
    (hshape : WinShape C n m nb nbo t (C.mk2 lt0 lo0))
    (hsame : ∀ c, ¬ InWin C n m nb nbo (C.mk2 lt0 lo0) c → t c = t0 c)
    (hwin : ∀ x y, x < n → y < m → winElem C nb nbo t (C.mk2 lt0 lo0) x y =
      elemAlong C B ((P.at' C r).rangeBegin ib + subOf (P.at' C r) ib lt0 nb x)
        ((P.at' C.orth r).rangeBegin ib + subOf (P.at' C.orth r) ib lo0 nbo y))
    (hout : ∀ x y, 0 ≤ x → 0 ≤ y →
      ¬ ((ib ≤ (P.at' C r).tileOf x ∧ (P.at' C r).tileOf x < ie) ∧
        (ib ≤ (P.at' C.orth r).tileOf y ∧ (P.at' C.orth r).tileOf y < ie)) → elemAlong C B x y = elemAlong C B0 x y) :
    StoresAt P B r t := by
  rw [storesAt_along C] at h ⊢
  intro li lj hi hj
  obtain ⟨q1, q2, q0, q3⟩ := C02_local_global_local hC.valid (lt := li) (by omega) hi
  obtain ⟨p1, p2, p0, p3⟩ := C02_local_global_local hO.valid (lt := lj) (by omega) hj
  by_cases hin : InWin C n m nb nbo (C.mk2 lt0 lo0) (C.mk2 li lj)
  · obtain ⟨a, b, ha, hb, hc⟩ := hin
    have hc1 := congrArg (fun c => c.get C) hc
    have hc2 := congrArg (fun c => c.get C.orth) hc
    simp only [add_get, mk2_get, mk2_get_orth] at hc1 hc2
    obtain ⟨r1, r2, r3, r4, r5⟩ := w.range a ha
    obtain ⟨s1, s2, s3, s4, s5⟩ := wo.range b hb
    obtain ⟨z1, z2⟩ := hshape _ _ ha hb
    rw [← hc] at z1 z2
    rw [← hc1] at r1 r2 r3 r4 r5
    rw [← hc2] at s1 s2 s3 s4 s5
    refine ⟨by rw [r5, z1], by rw [s5, z2], ?_⟩
    intro a' b' ha' hb'
    rw [z1] at ha'
    rw [z2] at hb'
    have d1 : (a * nb + a') / nb = a := by
      rw [Nat.add_comm, Nat.add_mul_div_right _ _ w.nb_pos, Nat.div_eq_of_lt (by omega)]; omega
    have d2 : (a * nb + a') % nb = a' := by
      rw [Nat.add_comm, Nat.add_mul_mod_self_right, Nat.mod_eq_of_lt (by omega)]
    have d3 : (b * nbo + b') / nbo = b := by
      rw [Nat.add_comm, Nat.add_mul_div_right _ _ wo.nb_pos, Nat.div_eq_of_lt (by omega)]; omega
    have d4 : (b * nbo + b') % nbo = b' := by
      rw [Nat.add_comm, Nat.add_mul_mod_self_right, Nat.mod_eq_of_lt (by omega)]
    have hx : a * nb + a' < n := by omega
    have hy : b * nbo + b' < m := by omega
    have := hwin _ _ hx hy
    have i1 := (w.sub_spec hC h0 h1 e1 hx).1
    have i2 := (wo.sub_spec hO h0 h1 e2 hy).1
    rw [← i1, ← i2] at this
    unfold winElem at this
    rw [d1, d2, d3, d4, ← hc, ← hc1, ← hc2, hC.begin q0, hO.begin p0] at this
    rw [this, hC.tileBegin q0, hO.tileBegin p0]
  · rw [hsame _ hin]
    obtain ⟨x1, x2, x3⟩ := h li lj hi hj
    refine ⟨x1, x2, fun a b ha hb => ?_⟩
    rw [x3 a b ha hb]
    symm
    have ht : 0 < (P.at' C r).tile := hC.valid.2.2.1
    have hto : 0 < (P.at' C.orth r).tile := hO.valid.2.2.1
    rw [hC.tileBegin q0, hO.tileBegin p0]
    have g1 := Int.mul_nonneg q0 (Int.le_of_lt ht)
    have g2 := Int.mul_nonneg p0 (Int.le_of_lt hto)
    apply hout _ _ (by omega) (by omega)
    rintro ⟨⟨o1, o2⟩, o3, o4⟩
    have tl : ∀ {p : Params}, Plain p → ∀ {T : Int} {a : Nat}, 0 ≤ T → (a : Int) < p.dist.global_tile_size_of T →
        p.tileOf (T * p.tile + a) = T := by
      intro p hp T a hT ha
      rw [hp.tileOf]
      rw [hp.tsz] at ha
      have htp : 0 < p.tile := hp.valid.2.2.1
      rw [Int.add_comm, Int.add_mul_ediv_right _ _ (by omega), Int.ediv_eq_zero_of_lt (by omega) (by omega)]
      omega
    rw [tl hC q0 (by rw [← x1]; exact_mod_cast ha)] at o1 o2
    rw [tl hO p0 (by rw [← x2]; exact_mod_cast hb)] at o3 o4
    obtain ⟨a1, ha1, ha2⟩ := w.mem _ o1 o2 q2
    obtain ⟨b1, hb1, hb2⟩ := wo.mem _ o3 o4 p2
    apply hin
    refine ⟨a1, b1, ha1, hb1, ?_⟩
    have inj : ∀ {p : Params}, Plain p → ∀ {u v : Int}, 0 ≤ u → 0 ≤ v →
        p.dist.global_tile_from_local_tile u = p.dist.global_tile_from_local_tile v → u = v := by
      intro p hp u v hu hv he
      rcases Int.lt_trichotomy u v with hlt | hlt | hlt
      · have := C05_increasing hp.valid hu hlt; omega
      · exact hlt
      · have := C05_increasing hp.valid hv hlt; omega
    have f1 := inj hC (by have := w.lt0_nonneg; omega) (by omega) ha2
    have f2 := inj hO (by have := wo.lt0_nonneg; omega) (by omega) hb2
    rw [← f1, ← f2]
    cases C <;> rfl

end DLAF
