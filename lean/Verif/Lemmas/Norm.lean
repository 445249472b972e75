import Verif.Model.Norm
import Verif.Spec.DistElems
import Verif.Lemmas.BroadcastPanel
import Verif.Props.MatrixRef
import Verif.Props.Copy
import Mathlib.Order.MinMax
/- Lemmas for the max norm. -/
namespace DLAF
variable {K N : Type} [LinearOrder N] [Zero N]

/-- `v` is the maximum of 0 and the elements of `S`. -/
def IsMax0 (S : N → Prop) (v : N) : Prop := (v = 0 ∨ S v) ∧ 0 ≤ v ∧ ∀ x, S x → x ≤ v

theorem IsMax0.congr {S T : N → Prop} {v : N} (h : IsMax0 S v) (hst : ∀ x, S x ↔ T x) : IsMax0 T v := by
  have : S = T := funext fun x => propext (hst x)
  rwa [← this]

theorem foldl_max_spec (l : List N) (a : N) :
    (l.foldl max a = a ∨ l.foldl max a ∈ l) ∧ a ≤ l.foldl max a ∧ ∀ x ∈ l, x ≤ l.foldl max a := by
  induction l generalizing a with
  | nil => simp
  | cons y l ih =>
    obtain ⟨h1, h2, h3⟩ := ih (max a y)
    rw [List.foldl_cons]
    refine ⟨?_, le_trans (le_max_left _ _) h2, ?_⟩
    · rcases h1 with h1 | h1
      · rw [h1]
        rcases max_choice a y with h | h
        · exact .inl h
        · right; rw [h]; simp
      · right; simp [h1]
    · intro x hx
      rcases List.mem_cons.1 hx with rfl | hx
      · exact le_trans (le_max_right _ _) h2
      · exact h3 x hx

theorem maxFrom0_spec (l : List N) : IsMax0 (· ∈ l) (maxFrom0 l) := by
  obtain ⟨a, b, c⟩ := foldl_max_spec l 0
  exact ⟨a, b, c⟩

/-- The maximum of the maxima. -/
theorem IsMax0.union {ι : Type*} {l : List ι} {f : ι → N} {S : ι → N → Prop} (h : ∀ i ∈ l, IsMax0 (S i) (f i)) {v : N}
    (hv : IsMax0 (· ∈ l.map f) v) : IsMax0 (fun x => ∃ i ∈ l, S i x) v := by
  obtain ⟨a, b, c⟩ := hv
  refine ⟨?_, b, ?_⟩
  · rcases a with a | a
    · exact .inl a
    · obtain ⟨i, hi, rfl⟩ := List.mem_map.1 a
      rcases (h i hi).1 with h0 | h0
      · exact .inl h0
      · exact .inr ⟨i, hi, h0⟩
  · rintro x ⟨i, hi, hx⟩
    exact le_trans ((h i hi).2.2 x hx) (c _ (List.mem_map.2 ⟨i, hi, rfl⟩))

theorem maxElement_spec {l : List N} (h0 : ∀ x ∈ l, 0 ≤ x) (hne : l ≠ []) :
    ∃ v, maxElement l = some v ∧ IsMax0 (· ∈ l) v := by
  cases l with
  | nil => exact absurd rfl hne
  | cons y l =>
    obtain ⟨a, b, c⟩ := foldl_max_spec l y
    refine ⟨_, rfl, ?_, le_trans (h0 y (by simp)) b, ?_⟩
    · rcases a with a | a
      · right; rw [a]; simp
      · right; simp [a]
    · intro x hx
      rcases List.mem_cons.1 hx with rfl | hx
      · exact b
      · exact c x hx

theorem localMax_spec {l : List N} (h0 : ∀ x ∈ l, 0 ≤ x) : ∃ v, localMax l = some v ∧ IsMax0 (· ∈ l) v := by
  unfold localMax
  cases l with
  | nil => exact ⟨0, by simp, .inl rfl, le_refl _, by simp⟩
  | cons y l =>
    obtain ⟨v, h1, h2⟩ := maxElement_spec (l := y :: l) h0 (by simp)
    exact ⟨v, by simpa using h1, h2⟩

theorem langeMax_spec (absv : K → N) (b : Blk K) :
    IsMax0 (fun x => ∃ i j, i < b.rows ∧ j < b.cols ∧ x = absv (b.e i j)) (langeMax absv b) := by
  refine (maxFrom0_spec _).congr fun x => ?_
  simp only [List.mem_flatMap, List.mem_map, List.mem_range]
  constructor
  · rintro ⟨j, hj, i, hi, rfl⟩; exact ⟨i, j, hi, hj, rfl⟩
  · rintro ⟨i, j, hi, hj, rfl⟩; exact ⟨j, hj, i, hi, rfl⟩

theorem lantrMaxLower_spec (absv : K → N) (b : Blk K) (h : b.cols ≤ b.rows) :
    ∃ v, lantrMaxLower absv b = some v ∧
      IsMax0 (fun x => ∃ i j, i < b.rows ∧ j < b.cols ∧ j ≤ i ∧ x = absv (b.e i j)) v := by
  refine ⟨_, if_pos h, (maxFrom0_spec _).congr fun x => ?_⟩
  simp only [List.mem_flatMap, List.mem_map, List.mem_filter, List.mem_range, decide_eq_true_eq]
  constructor
  · rintro ⟨j, hj, i, ⟨hi, hij⟩, rfl⟩; exact ⟨i, j, hi, hj, hij, rfl⟩
  · rintro ⟨i, j, hi, hj, hij, rfl⟩; exact ⟨j, hj, i, ⟨hi, hij⟩, rfl⟩

/-- The reduction. -/
theorem reduceMax_spec {ranks : List Coord2} {root : Coord2} (hroot : root ∈ ranks) {value : Coord2 → Option N}
    {S : Coord2 → N → Prop} (h : ∀ r ∈ ranks, ∃ v, value r = some v ∧ IsMax0 (S r) v) :
    ∃ f, reduceMax ranks root value = some f ∧ IsMax0 (fun x => ∃ r ∈ ranks, S r x) (f root) ∧
      ∀ r ∈ ranks, r ≠ root → IsMax0 (S r) (f r) := by
  have hv : ∀ r ∈ ranks, value r = some ((value r).getD 0) := by
    intro r hr
    obtain ⟨v, hv, _⟩ := h r hr
    rw [hv]; rfl
  have hm : ∀ r ∈ ranks, IsMax0 (S r) ((value r).getD 0) := by
    intro r hr
    obtain ⟨v, hv, hs⟩ := h r hr
    rw [hv]; exact hs
  have e1 := mapOpt_eq_map hv
  obtain ⟨v, h1, h2⟩ := maxElement_spec (l := ranks.map fun r => (value r).getD 0)
    (by intro x hx; obtain ⟨r, hr, rfl⟩ := List.mem_map.1 hx; exact (hm r hr).2.1)
    (by intro he; rw [List.map_eq_nil_iff] at he; rw [he] at hroot; simp at hroot)
  refine ⟨fun r => if r = root then v else (value r).getD 0, ?_, ?_, ?_⟩
  · unfold reduceMax
    rw [e1, Option.bind_some, h1, Option.bind_some]
  · simp only [if_true]
    exact IsMax0.union hm h2
  · intro r hr hne
    simp only [if_neg hne]
    exact hm r hr

/-! ### Elements and local tiles -/

/-- Every element sits in a local tile of some process. -/
theorem Params.Valid.elem_local {p : Params} (hp : p.Valid) {e : Int} (h0 : 0 ≤ e) (h1 : e < p.size) :
    ∃ r, 0 ≤ r ∧ r < p.grid ∧ ∃ lt a : Nat, (lt : Int) < (p.onRank r).dist.localNrTiles ∧
      (p.onRank r).dist.global_tile_from_local_tile lt = p.tileOf e ∧
      (a : Int) < p.dist.global_tile_size_of (p.tileOf e) ∧ p.tileBegin (p.tileOf e) + a = e := by
  obtain ⟨s1, s2, s3, s4, s5⟩ := C03_global_split hp h0 h1
  rw [hp.tileOf_eq h0] at s1 s2 s3 s5
  obtain ⟨o, ⟨o1, o2⟩, _, h3⟩ := C01_tile_owner hp s2 s3
  obtain ⟨k1, k2, _⟩ := h3 o o1 o2
  obtain ⟨l0, l1⟩ := k2 rfl
  refine ⟨o, o1, o2, ((p.onRank o).dist.local_tile_from_global_tile (p.tileOf e)).toNat,
    (p.dist.tile_element_from_global_element e).toNat, by omega, ?_, by omega, ?_⟩
  · rw [Int.toNat_of_nonneg l0]
    exact C02_global_local_global (hp.onRank o1 o2) s2 k1
  · rw [hp.tileBegin_eq s2] at s1
    omega

/-- The elements of a local tile are elements of the matrix. -/
theorem Params.Valid.local_elem_range {p : Params} (hp : p.Valid) {r : Int} (hr0 : 0 ≤ r) (hr1 : r < p.grid) {lt a : Nat}
    (hl : (lt : Int) < (p.onRank r).dist.localNrTiles)
    (ha : (a : Int) < p.dist.global_tile_size_of ((p.onRank r).dist.global_tile_from_local_tile lt)) :
    (0 ≤ p.tileBegin ((p.onRank r).dist.global_tile_from_local_tile lt) + a ∧
      p.tileBegin ((p.onRank r).dist.global_tile_from_local_tile lt) + a < p.size) ∧
    p.tileOf (p.tileBegin ((p.onRank r).dist.global_tile_from_local_tile lt) + a) =
      (p.onRank r).dist.global_tile_from_local_tile lt := by
  obtain ⟨_, _, g0, g1⟩ := C02_local_global_local (hp.onRank hr0 hr1) (lt := lt) (by omega) hl
  obtain ⟨e, ⟨e0, e1, e2, e3⟩, e4, _⟩ := C03_global_combine hp g0 g1 (te := a) (by omega) ha
  rw [hp.tileBegin_eq g0] at e4
  rw [hp.tileOf_eq e0] at e2
  rw [← e4]
  exact ⟨⟨e0, e1⟩, e2⟩

theorem mem_localTiles' {d : Distribution} {c : Nat × Nat} :
    c ∈ localTiles d ↔ (c.1 : Int) < d.row.localNrTiles ∧ (c.2 : Int) < d.col.localNrTiles := by
  unfold localTiles
  simp only [List.mem_flatMap, List.mem_map, List.mem_range]
  constructor
  · rintro ⟨j, hj, i, hi, rfl⟩
    exact ⟨by show (i : Int) < _; omega, by show (j : Int) < _; omega⟩
  · rintro ⟨h1, h2⟩
    exact ⟨c.2, by omega, c.1, by omega, rfl⟩

theorem Params2.mem_ranks_iff {P : Params2} {r : Coord2} :
    r ∈ P.ranks ↔ (0 ≤ r.row ∧ r.row < P.row.grid) ∧ (0 ≤ r.col ∧ r.col < P.col.grid) := by
  rw [Params2.ranks_eq, mem_pairs, mem_ints, mem_ints]

/-- The elements stored by the processes are exactly the elements of the matrix. -/
theorem StoresElems.elems {P : Params2} (hP : P.Valid) {A : Int → Int → K} {tile : Coord2 → Coord2 → Blk K}
    (h : StoresElems P A tile) (Q : Int → Int → K → Prop) :
    (∃ i j, (0 ≤ i ∧ i < P.row.size) ∧ (0 ≤ j ∧ j < P.col.size) ∧ Q i j (A i j)) ↔
    ∃ r ∈ P.ranks, ∃ c ∈ localTiles (P.on r), ∃ a b : Nat, a < (tile r ⟨c.1, c.2⟩).rows ∧ b < (tile r ⟨c.1, c.2⟩).cols ∧
      Q (P.row.tileBegin ((P.on r).row.global_tile_from_local_tile c.1) + a)
        (P.col.tileBegin ((P.on r).col.global_tile_from_local_tile c.2) + b) ((tile r ⟨c.1, c.2⟩).e a b) := by
  constructor
  · rintro ⟨i, j, hi, hj, hq⟩
    obtain ⟨r, r0, r1, li, a, l1, l2, l3, l4⟩ := hP.1.elem_local hi.1 hi.2
    obtain ⟨s, s0, s1, lj, b, m1, m2, m3, m4⟩ := hP.2.elem_local hj.1 hj.2
    have hr : (⟨r, s⟩ : Coord2) ∈ P.ranks := Params2.mem_ranks_iff.2 ⟨⟨r0, r1⟩, s0, s1⟩
    obtain ⟨h1, h2, h3⟩ := h ⟨r, s⟩ hr li lj l1 m1
    refine ⟨⟨r, s⟩, hr, (li, lj), mem_localTiles'.2 ⟨l1, m1⟩, a, b, ?_, ?_, ?_⟩
    · have e : (P.on ⟨r, s⟩).row.global_tile_from_local_tile li = P.row.tileOf i := l2
      rw [e] at h1
      show a < (tile ⟨r, s⟩ ⟨li, lj⟩).rows
      omega
    · have e : (P.on ⟨r, s⟩).col.global_tile_from_local_tile lj = P.col.tileOf j := m2
      rw [e] at h2
      show b < (tile ⟨r, s⟩ ⟨li, lj⟩).cols
      omega
    · have e : (P.on ⟨r, s⟩).row.global_tile_from_local_tile li = P.row.tileOf i := l2
      have e' : (P.on ⟨r, s⟩).col.global_tile_from_local_tile lj = P.col.tileOf j := m2
      rw [e] at h1
      rw [e'] at h2
      have h4 := h3 a b (by omega) (by omega)
      rw [e, e'] at h4
      show Q (P.row.tileBegin ((P.on ⟨r, s⟩).row.global_tile_from_local_tile li) + a)
        (P.col.tileBegin ((P.on ⟨r, s⟩).col.global_tile_from_local_tile lj) + b) ((tile ⟨r, s⟩ ⟨li, lj⟩).e a b)
      rw [h4, e, e', l4, m4]
      exact hq
  · rintro ⟨r, hr, c, hc, a, b, ha, hb, hq⟩
    obtain ⟨c1, c2⟩ := mem_localTiles'.1 hc
    obtain ⟨⟨r0, r1⟩, s0, s1⟩ := Params2.mem_ranks_iff.1 hr
    obtain ⟨h1, h2, h3⟩ := h r hr c.1 c.2 c1 c2
    obtain ⟨u1, _⟩ := hP.1.local_elem_range r0 r1 (lt := c.1) (a := a) c1
      (by have : _ = P.row.dist.global_tile_size_of ((P.row.onRank r.row).dist.global_tile_from_local_tile c.1) := h1
          omega)
    obtain ⟨v1, _⟩ := hP.2.local_elem_range s0 s1 (lt := c.2) (a := b) c2
      (by have : _ = P.col.dist.global_tile_size_of ((P.col.onRank r.col).dist.global_tile_from_local_tile c.2) := h2
          omega)
    rw [h3 a b ha hb] at hq
    exact ⟨_, _, u1, v1, hq⟩

end DLAF
