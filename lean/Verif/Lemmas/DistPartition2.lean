import Mathlib.Data.List.Nodup
import Verif.Lemmas.DistPartition
import Verif.Spec.DistPartition
/- The distributed deflation partition: positions, bins. -/
namespace DLAF
namespace DistPart
open C34
variable {p : Params} {n : Nat} {types : List ColType}

theorem sel_len (owner : Nat → Int) (r : Int) : ∀ s : List Nat, (∀ i ∈ s, i < types.length) →
    (sel owner types r .UpperHalf s).length + (sel owner types r .Dense s).length + (sel owner types r .LowerHalf s).length + (sel owner types r .Deflated s).length =
      s.countP fun i => decide (owner i = r)
  | [], _ => by simp [sel]
  | j :: s, h => by
    have ht := List.getElem?_eq_getElem (l := types) (h j List.mem_cons_self)
    have ih := sel_len owner r s fun i hi => h i (List.mem_cons_of_mem _ hi)
    rw [sel_cons _ _ _ ht, sel_cons _ _ _ ht, sel_cons _ _ _ ht, sel_cons _ _ _ ht]
    generalize types[j]'(h j List.mem_cons_self) = t at *
    by_cases ho : owner j = r
    · rw [List.countP_cons_of_pos (by simpa using ho), ← ih]
      cases t <;> simp [ho] <;> omega
    · rw [List.countP_cons_of_neg (by simpa using ho), ← ih]
      have ho' : ¬ r = owner j := fun z => ho z.symm
      cases t <;> simp [ho']

section
variable (hp : p.Valid) (hn : p.size = n)
include hp hn

theorem col_spec {r : Int} (h0 : 0 ≤ r) (h1 : r < p.grid) {l : Nat} (hl : l < localColumns p r) :
    (p.onRank r).dist.global_element_from_local_element l = localColumn p r l ∧ localColumn p r l < n ∧ p.owner (localColumn p r l) = r ∧
      (p.onRank r).dist.local_element_from_global_element (localColumn p r l) = l := by
  have hv := hp.onRank h0 h1
  have hs : (p.onRank r).size = n := hn
  unfold localColumns at hl
  obtain ⟨a1, a2, a3, a4⟩ := C03_local_global_local hv (e := l) (by omega) (by omega)
  unfold localColumn
  have e : (((p.onRank r).dist.global_element_from_local_element l).toNat : Int) = (p.onRank r).dist.global_element_from_local_element l := by omega
  rw [e]
  exact ⟨rfl, by omega, a2, a1⟩

theorem col_inj {r r' : Int} {l l' : Nat} (h0 : 0 ≤ r) (h1 : r < p.grid) (h0' : 0 ≤ r') (h1' : r' < p.grid) (hl : l < localColumns p r) (hl' : l' < localColumns p r')
    (he : localColumn p r l = localColumn p r' l') : r = r' ∧ l = l' := by
  obtain ⟨_, _, a3, a4⟩ := col_spec hp hn h0 h1 hl
  obtain ⟨_, _, b3, b4⟩ := col_spec hp hn h0' h1' hl'
  rw [he, b3] at a3
  subst a3
  rw [he] at a4
  refine ⟨rfl, ?_⟩
  rw [a4] at b4
  exact_mod_cast b4

theorem col_surj {g : Nat} (hg : g < n) : (0 ≤ p.owner g ∧ p.owner g < p.grid) ∧ ∃ l < localColumns p (p.owner g), localColumn p (p.owner g) l = g := by
  obtain ⟨a1, a2⟩ := C01_element_owner hp (e := g) (by omega) (by omega)
  obtain ⟨_, a3, _⟩ := a2 (p.owner g) a1.1 a1.2
  obtain ⟨b1, b2⟩ := a3 rfl
  have hv := hp.onRank (r := p.owner g) a1.1 a1.2
  have hs : (p.onRank (p.owner g)).size = n := hn
  have c := C03_owned_global_local_global hv (e := g) (by omega) (by first | exact rfl | omega)
  refine ⟨a1, ((p.onRank (p.owner g)).dist.local_element_from_global_element g).toNat, by unfold localColumns; omega, ?_⟩
  unfold localColumn
  rw [Int.toNat_of_nonneg b1, c, Int.toNat_natCast]

theorem order_length (ht : types.length = n) {s : List Nat} (hs : IsPerm n s) {r : Int} (h0 : 0 ≤ r) (h1 : r < p.grid) :
    (localOrder p types r s).length = localColumns p r := by
  have h := sel_len (types := types) (fun i => p.owner i) r s (fun i hi => by rw [ht]; exact hs.lt hi)
  have c := C04_local_size_count (hp.onRank (r := r) h0 h1)
  have hs' : (p.onRank r).size = n := hn
  rw [hs'] at c
  unfold countBelow at c
  have e := List.Perm.countP_eq (fun i : Nat => decide (p.owner i = r)) hs
  have e2 : localColumns p r = (List.range n).countP fun i : Nat => decide (p.owner i = r) := by
    unfold localColumns
    rw [c]
    rfl
  rw [e2, ← e, ← h]
  unfold localOrder typeOnRank sel
  simp only [List.length_append]

/-- The bins. -/
theorem bins (ht : types.length = n) {s out : List Nat} (hs : IsPerm n s) (ho : out.length = n) :
    ∃ cnt c, countLoop p.dist types s (fun _ _ => 0) = some cnt ∧ binLoop p.dist types s (sums cnt) out = some c ∧ c.length = n ∧
      (∀ r, sums cnt r (ev_sort_order .Deflated) = (typeOnRank p types r .UpperHalf s).length + (typeOnRank p types r .Dense s).length + (typeOnRank p types r .LowerHalf s).length) ∧
      ∀ r, 0 ≤ r → r < p.grid → ∀ l < localColumns p r, c[localColumn p r l]? = (localOrder p types r s)[l]? := by
  have hr : ∀ jj < n, rankOf p.dist jj = some (p.owner jj) := by
    intro jj hj
    obtain ⟨a1, a2⟩ := C01_element_owner hp (e := jj) (by omega) (by omega)
    have e : p.dist.rank_global_element jj = p.owner jj := hp.owner_eq (by omega)
    unfold rankOf
    rw [e, if_pos (show 0 ≤ p.owner jj ∧ p.owner jj < p.dist.grid from a1)]
  obtain ⟨cnt, c1, c2, c3⟩ := countLoop_spec (owner := fun i => p.owner i) hr ht s (fun _ _ => 0) (fun jj h => hs.lt h)
  have f : ∀ r, cnt r 0 = 0 ∧ cnt r 1 = (sel (fun i => p.owner i) types r .UpperHalf s).length ∧ cnt r 2 = (sel (fun i => p.owner i) types r .Dense s).length ∧
      cnt r 3 = (sel (fun i => p.owner i) types r .LowerHalf s).length := by
    intro r
    refine ⟨c2 r, ?_, ?_, ?_⟩
    · simpa [ev_sort_order] using c3 r .UpperHalf (by decide)
    · simpa [ev_sort_order] using c3 r .Dense (by decide)
    · simpa [ev_sort_order] using c3 r .LowerHalf (by decide)
  have b0 : ∀ r, sums cnt r (ev_sort_order .UpperHalf) = 0 := fun r => by simp [sums, ev_sort_order, (f r).1]
  have b1 : ∀ r, sums cnt r (ev_sort_order .Dense) = (sel (fun i => p.owner i) types r .UpperHalf s).length := fun r => by
    simp [sums, ev_sort_order, List.range_succ, (f r).1, (f r).2.1]
  have b2 : ∀ r, sums cnt r (ev_sort_order .LowerHalf) = (sel (fun i => p.owner i) types r .UpperHalf s).length + (sel (fun i => p.owner i) types r .Dense s).length := fun r => by
    simp [sums, ev_sort_order, List.range_succ, (f r).1, (f r).2.1, (f r).2.2.1]
  have b3 : ∀ r, sums cnt r (ev_sort_order .Deflated) = (sel (fun i => p.owner i) types r .UpperHalf s).length + (sel (fun i => p.owner i) types r .Dense s).length +
      (sel (fun i => p.owner i) types r .LowerHalf s).length := fun r => by
    simp [sums, ev_sort_order, List.range_succ, (f r).1, (f r).2.1, (f r).2.2.1, (f r).2.2.2]; omega
  have hlen : ∀ r, 0 ≤ r → r < p.grid → (sel (fun i => p.owner i) types r .UpperHalf s).length + (sel (fun i => p.owner i) types r .Dense s).length +
      (sel (fun i => p.owner i) types r .LowerHalf s).length + (sel (fun i => p.owner i) types r .Deflated s).length = localColumns p r := by
    intro r h0 h1
    rw [← order_length hp hn ht hs h0 h1]
    unfold localOrder typeOnRank sel
    simp only [List.length_append]
  obtain ⟨c, d1, d2, d3, _⟩ := binLoop_spec (owner := fun i => p.owner i) (d := p.dist) hr ht (pos := localColumn p) (N := localColumns p) (G := fun r => 0 ≤ r ∧ r < p.grid)
    (fun jj hj => (col_surj hp hn hj).1)
    (fun r l g hl => by
      obtain ⟨a1, a2, _, _⟩ := col_spec hp hn g.1 g.2 hl
      exact ⟨((C40_on_rank_helpers p r l).2.2.2.2.2.2.2).trans a1, a2⟩)
    (fun r l r' l' g g' hl hl' he => col_inj hp hn g.1 g.2 g'.1 g'.2 hl hl' he)
    s (sums cnt) out ho (fun jj h => hs.lt h)
    (fun r g t i hi => by
      have hl := hlen r g.1 g.2
      cases t
      · rw [b0]; omega
      · rw [b2]; omega
      · rw [b1]; omega
      · rw [b3]; omega)
    (fun r g t t' i i' hne hi hi' => by
      cases t <;> cases t' <;> simp only [b0, b1, b2, b3] <;> first | exact absurd rfl hne | omega)
  refine ⟨cnt, c, c1, d1, d2, b3, fun r h0 h1 l hl => ?_⟩
  have hl' := hlen r h0 h1
  unfold localOrder
  have e : ∀ t, typeOnRank p types r t s = sel (fun i => p.owner i) types r t s := fun _ => rfl
  rw [e, e, e, e]
  have q : ∀ t i (hi : i < (sel (fun i => p.owner i) types r t s).length), sums cnt r (ev_sort_order t) + i = l →
      c[localColumn p r l]? = (sel (fun i => p.owner i) types r t s)[i]? := by
    intro t i hi hh
    have := d3 r ⟨h0, h1⟩ t i hi
    rw [hh] at this
    rw [this, List.getElem?_eq_getElem hi]
  by_cases u : l < (sel (fun i => p.owner i) types r .UpperHalf s).length
  · rw [List.append_assoc, List.append_assoc, List.getElem?_append_left u]
    exact q .UpperHalf l u (by rw [b0]; omega)
  rw [List.append_assoc, List.append_assoc, List.getElem?_append_right (by omega)]
  by_cases v : l < (sel (fun i => p.owner i) types r .UpperHalf s).length + (sel (fun i => p.owner i) types r .Dense s).length
  · rw [List.getElem?_append_left (by omega)]
    exact q .Dense _ (by omega) (by rw [b1]; omega)
  rw [List.getElem?_append_right (by omega)]
  by_cases w : l < (sel (fun i => p.owner i) types r .UpperHalf s).length + (sel (fun i => p.owner i) types r .Dense s).length + (sel (fun i => p.owner i) types r .LowerHalf s).length
  · rw [List.getElem?_append_left (by omega)]
    exact q .LowerHalf _ (by omega) (by rw [b2]; omega)
  rw [List.getElem?_append_right (by omega)]
  exact q .Deflated _ (by omega) (by rw [b3]; omega)

omit hp hn in
theorem mem_order {r : Int} {s : List Nat} {x : Nat} (h : x ∈ localOrder p types r s) : x ∈ s ∧ p.owner x = r := by
  unfold localOrder typeOnRank at h
  simp only [List.mem_append, List.mem_filter, decide_eq_true_eq] at h
  rcases h with ((h | h) | h) | h <;> exact ⟨h.1, h.2.2⟩

omit hp hn in
theorem order_nodup {r : Int} {s : List Nat} (hs : s.Nodup) : (localOrder p types r s).Nodup := by
  have disj : ∀ t t' : ColType, t ≠ t' → ∀ x, x ∈ typeOnRank p types r t s → x ∈ typeOnRank p types r t' s → False := by
    intro t t' hne x h1 h2
    simp only [typeOnRank, List.mem_filter, decide_eq_true_eq] at h1 h2
    exact hne (Option.some.inj (h1.2.1.symm.trans h2.2.1))
  have nd : ∀ t, (typeOnRank p types r t s).Nodup := fun t => hs.filter _
  unfold localOrder
  refine List.nodup_append.2 ⟨List.nodup_append.2 ⟨List.nodup_append.2 ⟨nd _, nd _, ?_⟩, nd _, ?_⟩, nd _, ?_⟩
  · rintro a ha b hb rfl; exact disj _ _ (by decide) a ha hb
  · rintro a ha b hb rfl
    rcases List.mem_append.1 ha with ha | ha
    · exact disj _ _ (by decide) a ha hb
    · exact disj _ _ (by decide) a ha hb
  · rintro a ha b hb rfl
    rcases List.mem_append.1 ha with ha | ha
    · rcases List.mem_append.1 ha with ha | ha
      · exact disj _ _ (by decide) a ha hb
      · exact disj _ _ (by decide) a ha hb
    · exact disj _ _ (by decide) a ha hb

/-- Sorting by type on each process column is a permutation that keeps the columns on their process column. -/
theorem coltype_perm (ht : types.length = n) {s c : List Nat} (hs : IsPerm n s) (hc : c.length = n)
    (h : ∀ r, 0 ≤ r → r < p.grid → ∀ l < localColumns p r, c[localColumn p r l]? = (localOrder p types r s)[l]?) :
    IsPerm n c ∧ ∀ g x : Nat, c[g]? = some x → p.owner x = p.owner g := by
  have key : ∀ g x : Nat, c[g]? = some x → x < n ∧ p.owner x = p.owner g ∧ ∃ l < localColumns p (p.owner g), localColumn p (p.owner g) l = g ∧
      (localOrder p types (p.owner g) s)[l]? = some x := by
    intro g x hx
    have hg : g < n := by rw [← hc]; exact (List.getElem?_eq_some_iff.1 hx).1
    obtain ⟨a, l, hl, e⟩ := col_surj hp hn hg
    have := h _ a.1 a.2 l hl
    rw [e, hx] at this
    obtain ⟨m1, m2⟩ := mem_order (List.mem_of_getElem? this.symm)
    exact ⟨hs.lt m1, m2, l, hl, e, this.symm⟩
  refine ⟨isPerm_of_nodup ?_ hc ?_, fun g x hx => (key g x hx).2.1⟩
  · rw [List.Nodup, List.pairwise_iff_getElem]
    intro i j hi hj hij he
    obtain ⟨_, o1, l1, _, e1, f1⟩ := key i _ (List.getElem?_eq_getElem hi)
    obtain ⟨_, o2, l2, _, e2, f2⟩ := key j _ (List.getElem?_eq_getElem hj)
    rw [he] at o1 f1
    have ho : p.owner i = p.owner j := o1.symm.trans o2
    rw [ho] at e1 f1
    have nd := order_nodup (p := p) (types := types) (r := p.owner j) hs.nodup
    have g1 := List.getElem?_eq_some_iff.1 f1
    have g2 := List.getElem?_eq_some_iff.1 f2
    obtain ⟨u1, v1⟩ := g1
    obtain ⟨u2, v2⟩ := g2
    have : l1 = l2 := (List.Nodup.getElem_inj_iff nd).1 (v1.trans v2.symm)
    rw [this, e2] at e1
    omega
  · intro x hx
    obtain ⟨g, hg, e⟩ := List.getElem_of_mem hx
    exact (key g x (by rw [List.getElem?_eq_getElem hg, e])).1

end
end DistPart
end DLAF
