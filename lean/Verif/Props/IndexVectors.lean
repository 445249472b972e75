import Verif.Lemmas.Tridiag
import Verif.Props.Layout
import Verif.Props.Distribution
/-! # C34 index vectors, C35 deflation partition -/

namespace DLAF.C34
open DLAF

/-- A permutation of `0 .. n-1`. -/
def IsPerm (n : Nat) (l : List Nat) : Prop := l.Perm (List.range n)

/-- Values in ascending order along an index vector. -/
def SortedAlong {T : Type} [LE T] (v : List T) (l : List Nat) : Prop :=
  l.Pairwise fun i j => ∃ a b, v[i]? = some a ∧ v[j]? = some b ∧ a ≤ b

theorem IsPerm.lt {n : Nat} {l : List Nat} (h : IsPerm n l) {i : Nat} (hi : i ∈ l) : i < n :=
  List.mem_range.1 (h.mem_iff.1 hi)
theorem IsPerm.length {n : Nat} {l : List Nat} (h : IsPerm n l) : l.length = n := by
  have := h.length_eq; simpa using this
theorem IsPerm.nodup {n : Nat} {l : List Nat} (h : IsPerm n l) : l.Nodup :=
  h.nodup_iff.2 List.nodup_range
theorem IsPerm.mem {n : Nat} {l : List Nat} (h : IsPerm n l) {i : Nat} (hi : i < n) : i ∈ l :=
  h.mem_iff.2 (List.mem_range.2 hi)

/-- The number of entries of the range of tiles is what `problemSize` says. -/
theorem C34_problem_size {p : Params} (hp : p.Valid) (ho : p.offset = 0) {i_begin i_end : Int}
    (h0 : 0 ≤ i_begin) (h1 : i_begin < i_end) (h2 : i_end ≤ p.dist.nrTiles) :
    problemSize i_begin i_end p.dist = p.tileEnd (i_end - 1) - p.tileBegin i_begin := by
  unfold problemSize
  rw [C06_tile_size_is_extent hp (t := i_end - 1) (by omega) (by omega)]
  have ht : p.dist.tileSize = p.tile := rfl
  have hpos : 0 < p.tile := hp.2.2.1
  simp only [Params.tileBegin, ho, Int.zero_ediv, Int.zero_add, Int.sub_zero, ht]
  have := Int.mul_nonneg h0 (show 0 ≤ p.tile by omega)
  have := Int.mul_nonneg (show 0 ≤ i_end - 1 by omega) (show 0 ≤ p.tile by omega)
  have e : (i_end - i_begin - 1) * p.tile = (i_end - 1) * p.tile - i_begin * p.tile := by ring
  rw [e]; omega

theorem range_blocks (t s : Nat) : ∀ n : Nat, ((List.range n).flatMap fun k : Nat =>
    (List.range t).map fun r : Nat => (k : Int) * t + r) ++ (List.range s).map (fun r : Nat => (n : Int) * t + r)
    = (List.range (n * t + s)).map fun i : Nat => (i : Int) := by
  intro n
  induction n generalizing s with
  | zero => simp
  | succ n ih =>
    rw [List.range_succ, List.flatMap_append]
    simp only [List.flatMap_cons, List.flatMap_nil, List.append_nil]
    rw [ih t]
    rw [show (n + 1) * t + s = (n * t + t) + s by ring, List.range_add (n := n * t + t), List.map_append,
      List.map_map]
    congr 1
    apply List.map_congr_left
    intro r _
    simp only [Function.comp_apply]
    push_cast; ring

/-- **Initialising** the index of a range of tiles gives the identity `0, 1, ..., n-1`. -/
theorem C34_init {p : Params} (hp : p.Valid) (ho : p.offset = 0) {i_begin : Int} {n : Nat} (h0 : 0 ≤ i_begin)
    (h1 : 1 ≤ n) (h2 : i_begin + n ≤ p.dist.nrTiles) :
    initIndex p.dist i_begin n
      = (List.range (problemSize i_begin (i_begin + n) p.dist).toNat).map fun i : Nat => (i : Int) := by
  obtain ⟨n, rfl⟩ : ∃ m, n = m + 1 := ⟨n - 1, by omega⟩
  have ht : p.dist.tileSize = p.tile := rfl
  have hpos : 0 < p.tile := hp.2.2.1
  have hgt := hp.gteo_eq
  have hfull : ∀ k : Nat, k < n → p.dist.global_tile_size_of (i_begin + k) = p.tile := by
    intro k hk
    by_cases hz : i_begin + k = 0
    · rw [C06_tile_size_is_extent hp (by omega) (by omega)]
      have hN := hp.wf.nrTiles_pos (hp.wf.size_pos_of (by omega))
      have hN2 : (p.dist.nrTiles - 1) * p.tile < p.size + p.dist.global_tile_element_offset := hN.2.1
      rw [hgt, ho] at hN2
      simp only [Params.tileBegin, Params.tileEnd, ho, Int.zero_ediv, hz]
      have := Int.mul_le_mul_of_nonneg_right (show 1 ≤ p.dist.nrTiles - 1 by omega) (show 0 ≤ p.tile by omega)
      simp only [Int.zero_emod] at hN2
      omega
    · exact (C06_tile_size_bounds hp (by omega) (by omega)).2.2 (by omega) (by omega)
  have hlast := C06_tile_size_bounds hp (t := i_begin + n) (by omega) (by push_cast at h2; omega)
  unfold initIndex
  rw [List.range_succ, List.flatMap_append]
  simp only [List.flatMap_cons, List.flatMap_nil, List.append_nil]
  have hl : (List.range n).flatMap (fun k : Nat => initIndexTile p.dist i_begin (i_begin + k))
      = (List.range n).flatMap fun k : Nat => (List.range p.tile.toNat).map
          fun r : Nat => (k : Int) * (p.tile.toNat : Int) + r := by
    apply List.flatMap_congr
    intro k hk
    unfold initIndexTile
    rw [hfull k (List.mem_range.1 hk), ht, Int.toNat_of_nonneg (by omega)]
    apply List.map_congr_left
    intro r _
    congr 2; omega
  rw [hl]
  have hs : initIndexTile p.dist i_begin (i_begin + n) = (List.range (p.dist.global_tile_size_of (i_begin + n)).toNat).map
      (fun r : Nat => (n : Int) * (p.tile.toNat : Int) + r) := by
    unfold initIndexTile
    rw [ht, Int.toNat_of_nonneg (by omega)]
    apply List.map_congr_left
    intro r _
    congr 2; omega
  rw [hs, range_blocks]
  congr 2
  unfold problemSize
  rw [ht]
  rw [show i_begin + ((n + 1 : Nat) : Int) - 1 = i_begin + n by push_cast; omega]
  rw [show i_begin + ((n + 1 : Nat) : Int) - i_begin - 1 = n by push_cast; omega]
  have hh := hlast.1
  have hnt := Int.mul_nonneg (show (0 : Int) ≤ n by omega) (show 0 ≤ p.tile by omega)
  generalize p.dist.global_tile_size_of (i_begin + n) = g at *
  zify
  rw [Int.toNat_of_nonneg (by omega), Int.toNat_of_nonneg (by omega), Int.toNat_of_nonneg (by omega)]

/-- **Joining two sub-problems**: the index of the first, then the index of the second shifted with
`addIndex`, is a permutation of the joint problem. -/
theorem C34_join {n1 n2 : Nat} {l1 l2 : List Nat} (h1 : IsPerm n1 l1) (h2 : IsPerm n2 l2) :
    IsPerm (n1 + n2) (l1 ++ addIndex n1 l2) := by
  unfold IsPerm addIndex
  rw [List.range_add]
  refine List.Perm.append h1 ?_
  have := h2.map (· + n1)
  refine this.trans ?_
  rw [show (List.range n2).map (· + n1) = (List.range n2).map (n1 + ·) from
    List.map_congr_left (fun a _ => Nat.add_comm a n1)]

/-- **Sorting** merges two sorted ranges into a permutation along which the values ascend, for every split
point (0 and n included).  Of equal values the one from the first range comes first. -/
theorem C34_sort {T : Type} [LinearOrder T] [Inhabited T] {n k : Nat} {v : List T} {idx : List Nat}
    (hv : v.length = n) (hp : IsPerm n idx) (hk : k ≤ n) (h1 : SortedAlong v (idx.take k))
    (h2 : SortedAlong v (idx.drop k)) :
    ∃ out, sortIndex k v idx = some out ∧ IsPerm n out ∧ SortedAlong v out := by
  have hall : idx.all (· < v.length) = true := by
    rw [List.all_eq_true]; intro i hi; simp [hv, hp.lt hi]
  refine ⟨_, by unfold sortIndex; rw [if_pos ⟨by rw [hp.length]; exact hk, hall⟩], ?_, ?_⟩
  · refine (stdMerge_perm _ _ _).trans ?_
    rw [List.take_append_drop]; exact hp
  · have conv : ∀ l : List Nat, (∀ i ∈ l, i < n) → (SortedAlong v l ↔ l.Pairwise fun i j => v[i]! ≤ v[j]!) := by
      intro l hl
      apply List.Pairwise.iff_of_mem
      intro i j hi hj
      have e1 : v[i]? = some v[i]! := by
        rw [getElem!_pos v i (by rw [hv]; exact hl i hi)]; exact List.getElem?_eq_getElem _
      have e2 : v[j]? = some v[j]! := by
        rw [getElem!_pos v j (by rw [hv]; exact hl j hj)]; exact List.getElem?_eq_getElem _
      constructor
      · rintro ⟨a, b, ha, hb, hab⟩
        rw [e1] at ha; rw [e2] at hb
        simp only [Option.some.injEq] at ha hb
        rw [ha, hb]; exact hab
      · intro h; exact ⟨_, _, e1, e2, h⟩
    have m1 : ∀ i ∈ idx.take k, i < n := fun i hi => hp.lt (List.mem_of_mem_take hi)
    have m2 : ∀ i ∈ idx.drop k, i < n := fun i hi => hp.lt (List.mem_of_mem_drop hi)
    have m3 : ∀ i ∈ stdMerge (fun i1 i2 => decide (v[i1]! < v[i2]!)) (idx.take k) (idx.drop k), i < n := by
      intro i hi
      have := (stdMerge_perm _ _ _).mem_iff.1 hi
      rw [List.take_append_drop] at this
      exact hp.lt this
    rw [conv _ m3]
    rw [conv _ m1] at h1
    rw [conv _ m2] at h2
    exact stdMerge_sorted (R := fun i j => v[i]! ≤ v[j]!) (fun x y h => le_of_lt (by simpa using h))
      (fun x y h => by simpa using h) (fun _ _ _ => le_trans) _ _ h1 h2

/-- The assertion: a split point beyond the range is rejected. -/
theorem C34_sort_rejects {T : Type} [LinearOrder T] [Inhabited T] {k : Nat} {v : List T} {idx : List Nat}
    (h : idx.length < k) : sortIndex k v idx = none := by
  unfold sortIndex
  rw [if_neg (by omega)]

/-- **Applying** an index vector: entry `i` of the output is entry `index[i]` of the input. -/
theorem C34_apply {T : Type} {n : Nat} {idx : List Nat} {x : List T} (hp : IsPerm n idx) (hx : x.length = n) :
    ∃ y, applyIndex idx x = some y ∧ y.length = n ∧
      ∀ i (hi : i < idx.length), y[i]? = x[idx[i]]? := by
  obtain ⟨y, hy⟩ : ∃ y, applyIndex idx x = some y := by
    unfold applyIndex
    have : ∀ l : List Nat, (∀ i ∈ l, i < x.length) → ∃ y, mapOpt (fun i => x[i]?) l = some y := by
      intro l
      induction l with
      | nil => intro _; exact ⟨[], rfl⟩
      | cons a l ih =>
        intro h
        obtain ⟨y, hy⟩ := ih (fun i hi => h i (List.mem_cons_of_mem _ hi))
        have ha : x[a]? = some (x[a]'(h a (List.mem_cons_self))) := List.getElem?_eq_getElem _
        exact ⟨x[a]'(h a (List.mem_cons_self)) :: y, by simp only [mapOpt, ha, hy]⟩
    exact this idx (fun i hi => by rw [hx]; exact hp.lt hi)
  refine ⟨y, hy, ?_, ?_⟩
  · have := mapOpt_length (f := fun i => x[i]?) hy
    rw [this, hp.length]
  · intro i hi
    have := mapOpt_getElem? (f := fun i => x[i]?) hy i
    rw [List.getElem?_eq_getElem hi, Option.bind_some] at this
    have hlt : i < y.length := by
      have := mapOpt_length (f := fun i => x[i]?) hy
      omega
    rw [List.getElem?_eq_getElem hlt] at this ⊢
    exact this

/-- **Inverting** gives the inverse permutation, whatever the output array contained. -/
theorem C34_invert {n : Nat} {idx out : List Nat} (hp : IsPerm n idx) (ho : out.length = n) :
    ∃ inv, invertIndex idx out = some inv ∧ IsPerm n inv ∧
      (∀ i (hi : i < idx.length), inv[idx[i]]? = some i) ∧
      (∀ j (hj : j < inv.length), idx[inv[j]]? = some j) := by
  obtain ⟨inv, h1, h2, _, h4⟩ := invertLoop_spec idx 0 out (fun a ha => by rw [ho]; exact hp.lt ha)
  have h4 := h4 hp.nodup
  have key : ∀ i (hi : i < idx.length), inv[idx[i]]? = some i := by
    intro i hi; have := h4 i hi; rw [Nat.zero_add] at this; exact this
  have hlen : inv.length = n := by rw [h2, ho]
  have back : ∀ j (hj : j < inv.length), idx[inv[j]]? = some j := by
    intro j hj
    obtain ⟨i, hi, he⟩ := List.getElem_of_mem (hp.mem (show j < n by omega))
    have := key i hi
    rw [he, List.getElem?_eq_getElem hj] at this
    simp only [Option.some.injEq] at this
    rw [this, List.getElem?_eq_getElem hi, he]
  refine ⟨inv, h1, ?_, key, back⟩
  have hnd : inv.Nodup := by
    rw [List.Nodup, List.pairwise_iff_getElem]
    intro a b ha hb hlt hab
    have e1 := back a ha
    have e2 := back b hb
    rw [hab, e2] at e1
    simp only [Option.some.injEq] at e1
    omega
  unfold IsPerm
  rw [List.perm_ext_iff_of_nodup hnd List.nodup_range]
  intro a
  rw [List.mem_range]
  constructor
  · intro ha
    obtain ⟨j, hj, rfl⟩ := List.getElem_of_mem ha
    have := back j hj
    have := (List.getElem?_eq_some_iff.1 this).1
    rw [hp.length] at this; exact this
  · intro ha
    have hi : a < idx.length := by rw [hp.length]; exact ha
    exact List.mem_of_getElem? (key a hi)

/-- **The inverse undoes the application**, in both orders. -/
theorem C34_invert_undoes_apply {T : Type} {n : Nat} {idx out : List Nat} {x : List T} (hp : IsPerm n idx)
    (ho : out.length = n) (hx : x.length = n) :
    ∃ inv, invertIndex idx out = some inv ∧
      (applyIndex idx x).bind (applyIndex inv) = some x ∧
      (applyIndex inv x).bind (applyIndex idx) = some x := by
  obtain ⟨inv, h1, h2, h3, h4⟩ := C34_invert hp ho
  have comp : ∀ (p q : List Nat), IsPerm n p → IsPerm n q →
      (∀ j (hj : j < q.length), p[q[j]]? = some j) → (applyIndex p x).bind (applyIndex q) = some x := by
    intro p q hp hq hpq
    obtain ⟨y, y1, y2, y3⟩ := C34_apply hp hx
    obtain ⟨z, z1, z2, z3⟩ := C34_apply hq y2
    rw [y1, Option.bind_some, z1]
    congr 1
    apply List.ext_getElem?
    intro j
    by_cases hj : j < n
    · have hjq : j < q.length := by rw [hq.length]; exact hj
      have hqj := hpq j hjq
      obtain ⟨hlt, he⟩ := List.getElem?_eq_some_iff.1 hqj
      rw [z3 j hjq, y3 _ hlt, he]
    · rw [List.getElem?_eq_none (by omega), List.getElem?_eq_none (by omega)]
  refine ⟨inv, h1, comp idx inv hp h2 h4, comp inv idx h2 hp h3⟩

/-! ### the arrays are really there -/

/-- **With the column-major layout** the pointer of the first tile of the range reaches every entry of the
range: the address used for entry `p` is the address of that element of the vector. -/
theorem C34_pointer_reaches_range {p q : Params} (hp : p.Valid) (hq : q.Valid) (ho : p.offset = 0)
    {al : Int} {ld : LdSpec} {m : MatrixMem} (hm : setUp .ColMajor (dist2 p q) al ld = some m) {i : Nat} {k : Int}
    (hk : 0 ≤ k) (hi : (i : Int) * p.tile + k < p.dist.localSize) (hq1 : 0 < q.dist.localSize) :
    vecAddr m i k = m.elemAddr (dist2 p q) ((i : Int) * p.tile + k) 0 := by
  have hpos : 0 < p.tile := hp.2.2.1
  have hit := Int.mul_nonneg (show (0 : Int) ≤ i by omega) (show 0 ≤ p.tile by omega)
  unfold setUp at hm
  rw [if_neg (by
    have h1 : (dist2 p q).row.localSize = p.dist.localSize := rfl
    have h2 : (dist2 p q).col.localSize = q.dist.localSize := rfl
    rw [h1, h2]; omega)] at hm
  simp only [setUpColMajor, Option.bind_eq_some_iff] at hm
  obtain ⟨l, hl, hm⟩ := hm
  have hl1 : 1 ≤ l := by have := compute_ld_some hl; omega
  have a1 := (colMajor_addr hp hq hl1 hm (i := (i : Int) * p.tile + k) (j := 0)
    ⟨⟨by omega, hi⟩, by omega, hq1⟩).1
  have a0 := (colMajor_addr hp hq hl1 hm (i := (i : Int) * p.tile) (j := 0)
    ⟨⟨by omega, by show _ < p.dist.localSize; omega⟩, by omega, hq1⟩).1
  rw [a1]
  have hoff : p.dist.local_tile_element_offset = 0 := by
    unfold Dist1.local_tile_element_offset Dist1.global_tile_element_offset
    rw [hp.offset_eq, ho]; simp
  have hqnz : q.dist.local_tile_from_local_element 0 = 0 ∧ q.dist.tile_element_from_local_element 0 = 0 := by
    obtain ⟨t, te, e1, e2, b1, b2, b3, b4, b5⟩ := hq.local_split (e := 0) (by omega) hq1
    have hb := hq.wf.E_bounds b1 b2
    rw [e1, e2]
    constructor
    · by_contra hne
      have := hb.2.2.2.1
      have hts : 0 < q.dist.tileSize := hq.2.2.1
      have hr := hq.wf.lteo_range
      have := Int.mul_le_mul_of_nonneg_right (show 1 ≤ t by omega) (show 0 ≤ q.dist.tileSize by omega)
      have h4 := hb.2.2.2.1
      rw [if_pos (by omega)] at h4
      omega
    · have := hb.1
      omega
  have htile : p.dist.local_tile_from_local_element ((i : Int) * p.tile) = i := by
    unfold Dist1.local_tile_from_local_element util.tile_from_element
    rw [hoff, Int.add_zero, show p.dist.tileSize = p.tile from rfl]
    exact Int.mul_tdiv_cancel _ (by omega)
  have hte : p.dist.tile_element_from_local_element ((i : Int) * p.tile) = 0 := by
    unfold Dist1.tile_element_from_local_element util.tile_element_from_element
    rw [hoff, Int.add_zero, show p.dist.tileSize = p.tile from rfl]
    simp
  unfold MatrixMem.elemAddr at a0
  simp only [show (dist2 p q).row = p.dist from rfl, show (dist2 p q).col = q.dist from rfl, htile, hte, hqnz.1,
    hqnz.2, tile_linear_index, Int.mul_zero, Int.add_zero, Int.toNat_natCast] at a0
  unfold vecAddr
  simp only [Option.map_eq_some_iff] at a0 ⊢
  obtain ⟨t, ht, he⟩ := a0
  refine ⟨t, ht, ?_⟩
  rw [he]
  simp

/-- a column vector of 4 entries in tiles of 2 -/
def vec4 : Params := ⟨4, 2, 2, 1, 0, 0, 0⟩
/-- one column -/
def one1 : Params := ⟨1, 1, 1, 1, 0, 0, 0⟩

/-- **Finding**: with the other two layouts a user can choose as the default
(`DLAF_DEFAULT_ALLOCATION_LAYOUT` = tiles or blocks) the pointer of the first tile plus 2 lies outside the
allocation of the first tile, and is not the address of the third entry of the vector. -/
theorem C34_other_layouts_break_pointer :
    (∃ m, setUp .Tiles (dist2 vec4 one1) 8 .padded = some m ∧
      vecAddr m 0 2 ≠ m.elemAddr (dist2 vec4 one1) 2 0 ∧
      ∃ a, vecAddr m 0 2 = some a ∧ m.chunkSize a.1 ≤ a.2) := by
  refine ⟨⟨[⟨2, 1, ⟨.tile 0 0, 0, 2⟩, 2⟩, ⟨2, 1, ⟨.tile 1 0, 0, 2⟩, 2⟩], _⟩, rfl, by decide, _, rfl, by decide⟩

/-- Non-vacuity of the sorting theorem: two sorted halves with a tie. -/
example : sortIndex 2 [(5 : Int), 7, 5, 6] [0, 1, 2, 3] = some [0, 2, 3, 1] ∧
    invertIndex [0, 2, 3, 1] [9, 9, 9, 9] = some [0, 3, 1, 2] ∧
    applyIndex [0, 2, 3, 1] ["a", "b", "c", "d"] = some ["a", "c", "d", "b"] := by
  refine ⟨?_, by decide, by decide⟩
  simp [sortIndex, stdMerge]
/-- Non-vacuity of `C34_init`: tiles 1 and 2 of a vector of 7 entries in tiles of 3. -/
example : initIndex (Params.dist ⟨7, 3, 3, 1, 0, 0, 0⟩) 1 2 = [0, 1, 2, 3] := by decide

end DLAF.C34

namespace DLAF.C35
open DLAF C34

/-- The indices of a given type in the order of `l`. -/
def select (types : List ColType) (t : ColType) (l : List Nat) : List Nat :=
  l.filter fun i => types[i]? = some t

theorem filter_perm_len {types : List ColType} {n : Nat} (hn : types.length = n) {l : List Nat} (hp : IsPerm n l)
    (t : ColType) : (select types t l).length = cnt t types := by
  have h1 := (hp.filter (fun i => decide (types[i]? = some t))).length_eq
  unfold select
  rw [h1, ← hn, ← idxOf_zero, idxOf_length]

theorem cnt_sum (types : List ColType) :
    cnt .UpperHalf types + cnt .Dense types + cnt .LowerHalf types + cnt .Deflated types = types.length := by
  induction types with
  | nil => rfl
  | cons t ts ih => cases t <;> simp [cnt] at * <;> omega

/-- **The deflation partition.**  For any types, eigenvalues and input permutation, and whatever the output
arrays contained: the arrays are written completely and inside their bounds;
* `index_sorted` is a permutation: first the non-deflated indices in the order of the input permutation,
  then the deflated ones with ascending eigenvalues;
* `index_sorted_coltype` is a permutation: upper, dense, lower (each in the initial order), then the
  same deflated part;
* the returned numbers are the numbers of non-deflated, and of upper, dense and lower columns. -/
theorem C35_partition {T : Type} [LinearOrder T] {n : Nat} {types : List ColType} {evals : List T}
    {perm out1 out2 : List Nat} (h1 : types.length = n) (h2 : evals.length = n) (h3 : out1.length = n)
    (h4 : out2.length = n) (hp : IsPerm n perm) :
    ∃ r defl, stablePartition types evals perm out1 out2 = some r ∧
      r.index_sorted = perm.filter (fun i => types[i]? ≠ some .Deflated) ++ defl ∧
      r.index_sorted_coltype = select types .UpperHalf (List.range n) ++ select types .Dense (List.range n) ++
        select types .LowerHalf (List.range n) ++ defl ∧
      defl.Perm (select types .Deflated perm) ∧ SortedAlong evals defl ∧
      IsPerm n r.index_sorted ∧ IsPerm n r.index_sorted_coltype ∧
      r.k = n - types.count .Deflated ∧
      r.n_udl = [types.count .UpperHalf, types.count .Dense, types.count .LowerHalf] := by
  have hsum := cnt_sum types
  set u := cnt .UpperHalf types with hu
  set d := cnt .Dense types with hd
  set l := cnt .LowerHalf types with hl
  have hoffs : partialSum 0 (typeCounts types) = [0, u, u + d, u + d + l] := by
    rw [typeCounts_eq]; simp [partialSum, hu, hd, hl]
  have hk : (partialSum 0 (typeCounts types)).getD (ev_sort_order .Deflated) 0 = u + d + l := by
    rw [hoffs]; rfl
  have hdef := filter_perm_len h1 hp .Deflated
  have hnd : (perm.filter fun i => types[i]? ≠ some .Deflated).length = u + d + l := by
    have e1 := List.length_eq_length_filter_add (l := perm) (fun i => decide (types[i]? = some ColType.Deflated))
    have e2 : (perm.filter fun i => !decide (types[i]? = some ColType.Deflated))
        = perm.filter fun i => types[i]? ≠ some .Deflated := by
      apply List.filter_congr; intro i _; simp
    rw [e2, hp.length] at e1
    unfold select at hdef
    omega
  obtain ⟨D', f1, f2, f3⟩ := partitionLoop_spec types evals (by omega) (u + d + l) perm [] []
    (out1.take (u + d + l)) (out1.drop (u + d + l)) (by simp; omega) (fun i hi => by rw [h1]; exact hp.lt hi)
    (by simp) (by rw [hnd]; simp; omega) (by
      unfold select at hdef; rw [hdef]; simp; omega) (by simp)
  simp only [List.nil_append, List.length_nil, Nat.add_zero, List.take_append_drop] at f1 f2
  have hb := binLoop_spec types 0 [] (out2.take u) [] ((out2.drop u).take d) [] ((out2.drop (u + d)).take l)
    (out2.drop (u + d + l)) (u + d + l) (by simp; omega) (by simp; omega) (by simp; omega)
  have e2 : [] ++ out2.take u ++ ([] ++ (out2.drop u).take d) ++ ([] ++ (out2.drop (u + d)).take l) ++
      out2.drop (u + d + l) = out2 := by
    simp only [List.nil_append]
    rw [show out2.drop (u + d) = (out2.drop u).drop d by rw [List.drop_drop],
      show out2.drop (u + d + l) = ((out2.drop u).drop d).drop l by
        rw [List.drop_drop, List.drop_drop, Nat.add_assoc]]
    simp only [List.append_assoc, List.take_append_drop]
  have e3 : [([] : List Nat).length, ([] : List Nat).length + (out2.take u).length + ([] : List Nat).length,
      ([] : List Nat).length + (out2.take u).length + ([] : List Nat).length + ((out2.drop u).take d).length
        + ([] : List Nat).length, u + d + l] = [0, u, u + d, u + d + l] := by
    simp; omega
  rw [e2, e3] at hb
  simp only [List.nil_append, idxOf_zero, h1] at hb
  set c1 := (List.range n).filter fun i => types[i]? = some .UpperHalf with hc1
  set c2 := (List.range n).filter fun i => types[i]? = some .Dense with hc2
  set c3 := (List.range n).filter fun i => types[i]? = some .LowerHalf with hc3
  have hid : IsPerm n (List.range n) := List.Perm.refl _
  have l1 : c1.length = u := filter_perm_len h1 hid .UpperHalf
  have l2 : c2.length = d := filter_perm_len h1 hid .Dense
  have l3 : c3.length = l := filter_perm_len h1 hid .LowerHalf
  have hcopy : copyFrom (u + d + l) (perm.filter (fun i => types[i]? ≠ some .Deflated) ++ D')
      (c1 ++ c2 ++ c3 ++ out2.drop (u + d + l)) = c1 ++ c2 ++ c3 ++ D' := by
    unfold copyFrom
    rw [List.take_append_of_le_length (by simp; omega), List.take_of_length_le (by simp; omega),
      ← hnd, List.drop_append_of_le_length (by omega), List.drop_of_length_le (by omega)]
    simp
  have perm1 : IsPerm n (perm.filter (fun i => types[i]? ≠ some .Deflated) ++ D') := by
    refine (List.Perm.append_left _ f2).trans ?_
    have := List.filter_append_perm (fun i => decide (types[i]? ≠ some ColType.Deflated)) perm
    have e : (perm.filter fun i => !decide (types[i]? ≠ some ColType.Deflated))
        = perm.filter fun i => types[i]? = some .Deflated := by
      apply List.filter_congr; intro i _; simp
    rw [e] at this
    exact this.trans hp
  have perm2 : IsPerm n (c1 ++ c2 ++ c3 ++ D') := by
    have nd : (c1 ++ c2 ++ c3 ++ D').Nodup := by
      have disj : ∀ (a b : ColType), a ≠ b → ∀ {x}, x ∈ (List.range n).filter (fun i => types[i]? = some a) →
          x ∈ (List.range n).filter (fun i => types[i]? = some b) → False := by
        intro a b hab x hx hy
        simp only [List.mem_filter, decide_eq_true_eq] at hx hy
        have := hx.2.symm.trans hy.2
        simp only [Option.some.injEq] at this
        exact hab this
      have hD : ∀ {x}, x ∈ D' → x ∈ (List.range n).filter (fun i => types[i]? = some .Deflated) := by
        intro x hx
        have := f2.mem_iff.1 hx
        simp only [List.mem_filter, decide_eq_true_eq, List.mem_range] at this ⊢
        exact ⟨hp.lt this.1, this.2⟩
      have hDn : D'.Nodup := f2.nodup_iff.2 (hp.nodup.filter _)
      have n1 : c1.Nodup := List.nodup_range.filter _
      have n2 : c2.Nodup := List.nodup_range.filter _
      have n3 : c3.Nodup := List.nodup_range.filter _
      refine List.nodup_append.2 ⟨List.nodup_append.2 ⟨List.nodup_append.2 ⟨n1, n2, ?_⟩, n3, ?_⟩, hDn, ?_⟩
      · rintro a ha b hb rfl; exact disj .UpperHalf .Dense (by decide) ha hb
      · rintro a ha b hb rfl
        rcases List.mem_append.1 ha with ha | ha
        · exact disj .UpperHalf .LowerHalf (by decide) ha hb
        · exact disj .Dense .LowerHalf (by decide) ha hb
      · rintro a ha b hb rfl
        rcases List.mem_append.1 ha with ha | ha
        · rcases List.mem_append.1 ha with ha | ha
          · exact disj .UpperHalf .Deflated (by decide) ha (hD hb)
          · exact disj .Dense .Deflated (by decide) ha (hD hb)
        · exact disj .LowerHalf .Deflated (by decide) ha (hD hb)
    unfold IsPerm
    rw [List.perm_ext_iff_of_nodup nd List.nodup_range]
    intro a
    simp only [List.mem_append, hc1, hc2, hc3, List.mem_filter, decide_eq_true_eq, f2.mem_iff]
    constructor
    · rintro (((h | h) | h) | h)
      · exact h.1
      · exact h.1
      · exact h.1
      · exact List.mem_range.2 (hp.lt h.1)
    · intro ha
      have hlt : a < types.length := by rw [h1]; exact List.mem_range.1 ha
      have ht : types[a]? = some types[a] := List.getElem?_eq_getElem hlt
      cases hty : types[a] with
      | UpperHalf => exact Or.inl (Or.inl (Or.inl ⟨ha, by rw [ht, hty]⟩))
      | Dense => exact Or.inl (Or.inl (Or.inr ⟨ha, by rw [ht, hty]⟩))
      | LowerHalf => exact Or.inl (Or.inr ⟨ha, by rw [ht, hty]⟩)
      | Deflated => exact Or.inr ⟨hp.mem (List.mem_range.1 ha), by rw [ht, hty]⟩
  refine ⟨⟨u + d + l, [u, d, l], perm.filter (fun i => types[i]? ≠ some .Deflated) ++ D', c1 ++ c2 ++ c3 ++ D'⟩,
    D', ?_, rfl, rfl, f2, f3, perm1, perm2, ?_, rfl⟩
  · unfold stablePartition
    dsimp only
    rw [hk, f1, Option.bind_some, hoffs, hb, Option.map_some, hcopy, typeCounts_eq]
    rfl
  · have : types.count ColType.Deflated = cnt .Deflated types := rfl
    simp only
    omega

/-- Non-vacuity: three types, deflated values out of order. -/
example : stablePartition [.LowerHalf, .Deflated, .UpperHalf, .Deflated, .Dense] [(1 : Int), 9, 3, 2, 5]
    [0, 1, 2, 3, 4] [7, 7, 7, 7, 7] [8, 8, 8, 8, 8]
    = some ⟨3, [1, 1, 1], [0, 2, 4, 3, 1], [2, 4, 0, 3, 1]⟩ := by decide

end DLAF.C35
