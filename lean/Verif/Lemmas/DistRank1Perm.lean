import Verif.Spec.DistRank1
import Verif.Lemmas.DistRank1Local
import Verif.Lemmas.DistPartition2
import Verif.Lemmas.BroadcastPanel
import Mathlib.Algebra.BigOperators.Group.List.Basic
/- C68: sums and products over the processes of a row or column of the grid. -/
namespace DLAF
namespace DistR1
open Finset
variable {p : Params} {n k : Nat} {ix : List Nat} {kl : Int → Nat}

theorem irange_nd (a b : Int) : (irange a b).Nodup := by
  unfold irange
  rw [List.nodup_map_iff_inj_on List.nodup_range]
  intro x _ y _ h
  omega

theorem getD_of_get {l : List Nat} {e a : Nat} (h : l[e]? = some a) : l.getD e 0 = a := by rw [List.getD_eq_getElem?_getD, h]; rfl

theorem get_of_perm (hix : ix.Perm (List.range n)) {e : Nat} (he : e < n) : ix[e]? = some (ix.getD e 0) ∧ ix.getD e 0 < n := by
  have hl : ix.length = n := by simpa using hix.length_eq
  have h1 : ix[e]? = some (ix[e]'(by omega)) := List.getElem?_eq_getElem _
  have h2 := getD_of_get h1
  refine ⟨by rw [h1, h2], ?_⟩
  rw [h2]
  exact List.mem_range.1 (hix.mem_iff.1 (List.getElem_mem _))

theorem inj_of_perm (hix : ix.Perm (List.range n)) {e e' : Nat} (he : e < n) (he' : e' < n) (h : ix.getD e 0 = ix.getD e' 0) : e = e' := by
  have nd : ix.Nodup := hix.nodup_iff.2 List.nodup_range
  have hl : ix.length = n := by simpa using hix.length_eq
  have a1 := (get_of_perm hix he).1
  have a2 := (get_of_perm hix he').1
  rw [← h] at a2
  rw [List.getElem?_eq_some_iff] at a1 a2
  obtain ⟨u, a1⟩ := a1
  obtain ⟨v, a2⟩ := a2
  exact (List.Nodup.getElem_inj_iff nd).1 (a1.trans a2.symm)

theorem surj_of_perm (hix : ix.Perm (List.range n)) {a : Nat} (ha : a < n) : ∃ e < n, ix[e]? = some a ∧ ix.getD e 0 = a := by
  have hl : ix.length = n := by simpa using hix.length_eq
  obtain ⟨e, he, h⟩ := List.getElem_of_mem (hix.mem_iff.2 (List.mem_range.2 ha))
  have : ix[e]? = some a := by rw [List.getElem?_eq_getElem he, h]
  exact ⟨e, by omega, this, getD_of_get this⟩

/-- The places of all local columns on the process columns are the places below `k`. -/
theorem localPerm (hp : p.Valid) (hn : p.size = n) (hk : k ≤ n) (hix : ix.Perm (List.range n))
    (hkl : ∀ r, 0 ≤ r → r < p.grid → kl r ≤ localColumns p r ∧ ∀ l < localColumns p r, l < kl r ↔ ix.getD (localColumn p r l) 0 < k) :
    ((irange 0 p.grid).flatMap fun c => (List.range (kl c)).map fun l => ix.getD (localColumn p c l) 0).Perm (List.range k) := by
  refine (List.perm_ext_iff_of_nodup ?_ List.nodup_range).2 fun a => ?_
  · refine List.nodup_flatMap.2 ⟨fun c hc => ?_, ?_⟩
    · obtain ⟨h0, h1⟩ := mem_irange.1 hc
      refine (List.nodup_map_iff_inj_on List.nodup_range).2 fun x hx y hy h => ?_
      have hb := (hkl c h0 h1).1
      rw [List.mem_range] at hx hy
      obtain ⟨_, u2, _⟩ := DistPart.col_spec hp hn h0 h1 (show x < localColumns p c by omega)
      obtain ⟨_, v2, _⟩ := DistPart.col_spec hp hn h0 h1 (show y < localColumns p c by omega)
      exact (DistPart.col_inj hp hn h0 h1 h0 h1 (by omega) (by omega) (inj_of_perm hix u2 v2 h)).2
    · have nd := irange_nd 0 p.grid
      rw [List.Nodup] at nd
      refine nd.imp_of_mem fun {c c'} hc hc' hne => ?_
      obtain ⟨h0, h1⟩ := mem_irange.1 hc
      obtain ⟨h0', h1'⟩ := mem_irange.1 hc'
      have hb := (hkl c h0 h1).1
      have hb' := (hkl c' h0' h1').1
      intro a ha ha'
      obtain ⟨x, hx, ex⟩ := List.mem_map.1 ha
      obtain ⟨y, hy, ey⟩ := List.mem_map.1 ha'
      rw [List.mem_range] at hx hy
      obtain ⟨_, u2, _⟩ := DistPart.col_spec hp hn h0 h1 (show x < localColumns p c by omega)
      obtain ⟨_, v2, _⟩ := DistPart.col_spec hp hn h0' h1' (show y < localColumns p c' by omega)
      exact hne (DistPart.col_inj hp hn h0 h1 h0' h1' (by omega) (by omega) (inj_of_perm hix u2 v2 (ex.trans ey.symm))).1
  · simp only [List.mem_flatMap, List.mem_map, List.mem_range]
    constructor
    · rintro ⟨c, hc, l, hl, rfl⟩
      obtain ⟨h0, h1⟩ := mem_irange.1 hc
      have hb := hkl c h0 h1
      exact (hb.2 l (by omega)).1 hl
    · intro ha
      obtain ⟨e, he, _, ee⟩ := surj_of_perm hix (show a < n by omega)
      obtain ⟨⟨h0, h1⟩, l, hl, el⟩ := DistPart.col_surj hp hn he
      refine ⟨p.owner e, mem_irange.2 ⟨h0, h1⟩, l, ?_, by rw [el, ee]⟩
      exact ((hkl _ h0 h1).2 l hl).2 (by rw [el, ee]; exact ha)

theorem sum_map_range (k : Nat) (f : Nat → ℝ) : ((List.range k).map f).sum = ∑ j ∈ range k, f j := by
  induction k with
  | zero => simp
  | succ k ih => rw [List.range_succ, List.map_append, List.sum_append, ih, Finset.sum_range_succ]; simp

theorem prod_all (hp : p.Valid) (hn : p.size = n) (hk : k ≤ n) (hix : ix.Perm (List.range n))
    (hkl : ∀ r, 0 ≤ r → r < p.grid → kl r ≤ localColumns p r ∧ ∀ l < localColumns p r, l < kl r ↔ ix.getD (localColumn p r l) 0 < k) (f : Nat → ℝ) :
    ((irange 0 p.grid).map fun c => ∏ l ∈ range (kl c), f (ix.getD (localColumn p c l) 0)).prod = ∏ a ∈ range k, f a := by
  rw [← prod_map_range, ← ((localPerm hp hn hk hix hkl).map f).prod_eq, List.map_flatMap]
  generalize irange 0 p.grid = L
  induction L with
  | nil => simp
  | cons c L ih =>
    rw [List.map_cons, List.prod_cons, ih, List.flatMap_cons, List.prod_append, ← prod_map_range, List.map_map]
    rfl

theorem sum_all (hp : p.Valid) (hn : p.size = n) (hix : ix.Perm (List.range n)) (f : Nat → ℝ) :
    ((irange 0 p.grid).map fun c => ∑ l ∈ range (localColumns p c), f (ix.getD (localColumn p c l) 0)).sum = ∑ a ∈ range n, f a := by
  have hkl : ∀ r, 0 ≤ r → r < p.grid → localColumns p r ≤ localColumns p r ∧ ∀ l < localColumns p r, l < localColumns p r ↔ ix.getD (localColumn p r l) 0 < n :=
    fun r h0 h1 => ⟨Nat.le_refl _, fun l hl => ⟨fun _ => (get_of_perm hix (DistPart.col_spec hp hn h0 h1 hl).2.1).2, fun _ => hl⟩⟩
  rw [← sum_map_range, ← ((localPerm (kl := fun c => localColumns p c) hp hn (Nat.le_refl n) hix hkl).map f).sum_eq, List.map_flatMap]
  generalize irange 0 p.grid = L
  induction L with
  | nil => simp
  | cons c L ih =>
    rw [List.map_cons, List.sum_cons, ih, List.flatMap_cons, List.sum_append, ← sum_map_range, List.map_map]
    rfl

theorem prod_one_place {a b c0 : Int} (hc : a ≤ c0 ∧ c0 < b) (v : ℝ) : ((irange a b).map fun c => if c0 = c then v else 1).prod = v := by
  rw [← List.prod_toFinset _ (irange_nd a b), Finset.prod_ite_eq, if_pos]
  exact List.mem_toFinset.2 (mem_irange.2 hc)

/-- The weight of row place `a` is the product of the contributions of the process columns. -/
theorem weight_dist (hp : p.Valid) (hn : p.size = n) (hk : k ≤ n) (hix : ix.Perm (List.range n))
    (hkl : ∀ r, 0 ≤ r → r < p.grid → kl r ≤ localColumns p r ∧ ∀ l < localColumns p r, l < kl r ↔ ix.getD (localColumn p r l) 0 < k)
    {d z lam : Nat → ℝ} {rho : ℝ} (h : SecularInput k d z rho) (hl : Roots k d z rho lam) {a : Nat} (ha : a < k) {c0 : Int} (hc : 0 ≤ c0 ∧ c0 < p.grid) :
    ((irange 0 p.grid).map fun c => (if c0 = c then d a - lam a else 1) * ∏ l ∈ range (kl c),
      (if a = ix.getD (localColumn p c l) 0 then 1 else (d a - lam (ix.getD (localColumn p c l) 0)) / (d a - d (ix.getD (localColumn p c l) 0)))).prod = -(rho * z a ^ 2) := by
  rw [List.prod_map_mul, prod_one_place hc, prod_all hp hn hk hix hkl (fun b => if a = b then 1 else (d a - lam b) / (d a - d b)), ← hl.weight h ha]
  congr 1
  rw [← Finset.mul_prod_erase _ _ (mem_range.2 ha), if_pos rfl, one_mul]
  refine Finset.prod_congr rfl fun j hj => ?_
  rw [if_neg (fun e => (Finset.mem_erase.1 hj).1 e.symm)]

end DistR1
end DLAF
