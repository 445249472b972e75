import Verif.Lemmas.Permute
/- Lemmas for the distributed permutation: the packing and unpacking indices. -/
namespace DLAF

/-! ### positions in filtered ranges -/

theorem filter_range_succ (p : Nat → Bool) (n : Nat) :
    (List.range (n + 1)).filter p = (List.range n).filter p ++ (if p n then [n] else []) := by
  rw [List.range_succ, List.filter_append, List.filter_cons]
  split <;> simp

/-- The position of `l` among the selected indices is the number of selected indices before it. -/
theorem filter_range_pos (p : Nat → Bool) {n l : Nat} (hl : l < n) (hp : p l = true) :
    ((List.range n).filter p)[((List.range l).filter p).length]? = some l := by
  induction n with
  | zero => omega
  | succ n ih =>
    rw [filter_range_succ]
    by_cases h : l < n
    · have := ih h
      rw [List.getElem?_append_left]
      · exact this
      · exact (List.getElem?_eq_some_iff.1 this).1
    · have : l = n := by omega
      subst this
      rw [List.getElem?_append_right (le_refl _), hp]
      simp

theorem filter_lt_succ (g : Nat → Nat) (n Q : Nat) :
    ((List.range n).filter fun l => decide (g l < Q + 1)).length =
      ((List.range n).filter fun l => decide (g l < Q)).length + ((List.range n).filter fun l => decide (g l = Q)).length := by
  induction n with
  | zero => rfl
  | succ n ih =>
    simp only [filter_range_succ, List.length_append]
    rw [ih]
    rcases Nat.lt_trichotomy (g n) Q with h | h | h
    · have h1 : g n < Q + 1 := by omega
      have h2 : g n ≠ Q := by omega
      simp [h, h1, h2]; omega
    · have h1 : g n < Q + 1 := by omega
      have h2 : ¬ g n < Q := by omega
      simp [h]; omega
    · have h1 : ¬ g n < Q + 1 := by omega
      have h2 : g n ≠ Q := by omega
      have h3 : ¬ g n < Q := by omega
      simp [h1, h2, h3]

/-- The local indices with destination `q`. -/
def cls (g : Nat → Nat) (n q : Nat) : List Nat := (List.range n).filter fun l => decide (g l = q)

/-- The counts. -/
def cnts (g : Nat → Nat) (n R : Nat) : List Nat := (List.range R).map fun q => (cls g n q).length

theorem cnts_sum (g : Nat → Nat) (n Q : Nat) :
    (cnts g n Q).sum = ((List.range n).filter fun l => decide (g l < Q)).length := by
  induction Q with
  | zero => simp [cnts]
  | succ Q ih =>
    rw [filter_lt_succ, ← ih]
    simp [cnts, List.range_succ, cls]

theorem cnts_sum_le (g : Nat → Nat) (n Q : Nat) : (cnts g n Q).sum + (cls g n Q).length ≤ n := by
  rw [cnts_sum]
  have h := filter_lt_succ g n Q
  have h2 := List.length_filter_le (fun l => decide (g l < Q + 1)) (List.range n)
  rw [List.length_range] at h2
  unfold cls
  omega

theorem cnts_take (g : Nat → Nat) (n R : Nat) {q : Nat} (hq : q ≤ R) : (cnts g n R).take q = cnts g n q := by
  unfold cnts
  rw [← List.map_take, List.take_range]
  rw [show min q R = q by omega]

theorem displOf_cnts (g : Nat → Nat) (n R : Nat) {q : Nat} (hq : q ≤ R) : displOf (cnts g n R) q = (cnts g n q).sum := by
  unfold displOf; rw [cnts_take g n R hq]

theorem cnts_getD (g : Nat → Nat) (n R : Nat) {q : Nat} (hq : q < R) : (cnts g n R).getD q 0 = (cls g n q).length := by
  unfold cnts
  simp [List.getD, hq]

theorem cls_succ (g : Nat → Nat) (n q : Nat) : cls g (n + 1) q = cls g n q ++ (if g n = q then [n] else []) := by
  unfold cls
  rw [filter_range_succ]
  simp

theorem cls_length_mono (g : Nat → Nat) {k n : Nat} (q : Nat) (h : k ≤ n) : (cls g k q).length ≤ (cls g n q).length := by
  induction n with
  | zero => have : k = 0 := by omega
            rw [this]
  | succ n ih =>
    by_cases h' : k ≤ n
    · rw [cls_succ, List.length_append]
      have := ih h'
      omega
    · have : k = n + 1 := by omega
      rw [this]

/-! ### the loops -/

section
variable {d : Dist1} {off : Int} {L : List Nat} {g : Nat → Nat}

/-- The loop for one rank, unpacking index. -/
theorem packStep_fwd (hg : ∀ l (h : l < L.length), d.rank_global_element (off + L[l]) = g l) (q displ : Nat) {out : List Nat}
    (ho : out.length = L.length) :
    ∃ out', forM' (upto 0 L.length) (out, 0) (packStep false d off L q displ) = some (out', (cls g L.length q).length) ∧
      out'.length = L.length ∧ ∀ l < L.length, out'[l]? = if g l = q then some (displ + (cls g l q).length) else out[l]? := by
  obtain ⟨⟨o, c⟩, h1, h2, h3, h4⟩ := forM'_inv (n := L.length) (b := packStep false d off L q displ) (s := (out, 0))
    (I := fun k (s : List Nat × Nat) => s.2 = (cls g k q).length ∧ s.1.length = L.length ∧ ∀ l < L.length,
      s.1[l]? = if l < k ∧ g l = q then some (displ + (cls g l q).length) else out[l]?)
    (by
      rintro k hk ⟨o, c⟩ ⟨h1, h2, h3⟩
      simp only at h1 h2 h3
      unfold packStep
      rw [List.getElem?_eq_getElem hk, Option.bind_some, hg k hk]
      by_cases he : g k = q
      · rw [if_pos (by omega)]
        refine ⟨(o.set k (displ + c), c + 1), ?_, ?_, by simpa using h2, ?_⟩
        · simp only [Bool.false_eq_true, if_false]
          unfold setAt
          rw [if_pos (by rw [h2]; exact hk)]
          rfl
        · simp [cls_succ, he, h1]
        · intro l hl
          simp only [List.getElem?_set]
          by_cases hkl : k = l
          · subst hkl
            rw [if_pos rfl, if_pos (by rw [h2]; exact hk), if_pos ⟨by omega, he⟩, h1]
          · rw [if_neg hkl, h3 l hl]
            by_cases hc : l < k ∧ g l = q
            · rw [if_pos hc, if_pos ⟨by omega, hc.2⟩]
            · rw [if_neg hc, if_neg (by omega)]
      · rw [if_neg (by omega)]
        refine ⟨(o, c), rfl, ?_, h2, ?_⟩
        · simp [cls_succ, he, h1]
        · intro l hl
          rw [h3 l hl]
          by_cases hc : l < k ∧ g l = q
          · rw [if_pos hc, if_pos ⟨by omega, hc.2⟩]
          · rw [if_neg hc, if_neg]
            rintro ⟨a, b⟩
            by_cases hlk : l = k
            · subst hlk; exact he b
            · exact hc ⟨by omega, b⟩)
    ⟨rfl, ho, by intro l _; rw [if_neg (by omega)]⟩
  simp only at h2 h3 h4
  refine ⟨o, by rw [h1, h2], h3, fun l hl => ?_⟩
  rw [h4 l hl]
  simp [hl]

/-- The loop for one rank, packing index. -/
theorem packStep_back (hg : ∀ l (h : l < L.length), d.rank_global_element (off + L[l]) = g l) (q displ : Nat) {out : List Nat}
    (ho : displ + (cls g L.length q).length ≤ out.length) :
    forM' (upto 0 L.length) (out, 0) (packStep true d off L q displ) =
      some (out.take displ ++ cls g L.length q ++ out.drop (displ + (cls g L.length q).length), (cls g L.length q).length) := by
  obtain ⟨⟨o, c⟩, h1, h2, h3⟩ := forM'_inv (n := L.length) (b := packStep true d off L q displ) (s := (out, 0))
    (I := fun k (s : List Nat × Nat) => s.2 = (cls g k q).length ∧
      s.1 = out.take displ ++ cls g k q ++ out.drop (displ + (cls g k q).length))
    (by
      rintro k hk ⟨o, c⟩ ⟨h1, h2⟩
      simp only at h1 h2
      unfold packStep
      rw [List.getElem?_eq_getElem hk, Option.bind_some, hg k hk]
      by_cases he : g k = q
      · rw [if_pos (by omega)]
        have hlt : displ + (cls g k q).length < out.length := by
          have := cls_length_mono g q (show k + 1 ≤ L.length by omega)
          rw [cls_succ, if_pos he, List.length_append] at this
          simp at this
          omega
        have hlen : (out.take displ ++ cls g k q).length = displ + (cls g k q).length := by
          rw [List.length_append, List.length_take]; omega
        have hdrop : out.drop (displ + (cls g k q).length) =
            out[displ + (cls g k q).length] :: out.drop (displ + (cls g k q).length + 1) := List.drop_eq_getElem_cons hlt
        refine ⟨(out.take displ ++ cls g (k + 1) q ++ out.drop (displ + (cls g (k + 1) q).length), c + 1), ?_, ?_, rfl⟩
        · simp only [if_true]
          rw [h2, hdrop, setAt_append _ _ _ _ _ (by rw [hlen, h1]), Option.map_some, cls_succ, if_pos he]
          simp [Nat.add_assoc]
        · simp [cls_succ, he, h1]
      · rw [if_neg (by omega)]
        refine ⟨(o, c), rfl, ?_, ?_⟩
        · simp [cls_succ, he, h1]
        · simp only [cls_succ, he, if_false, List.append_nil]; exact h2)
    ⟨rfl, by simp [cls]⟩
  simp only at h2 h3
  rw [h1, h2, h3]

/-- The unpacking index. -/
theorem initPackingIndex_fwd (hg : ∀ l (h : l < L.length), d.rank_global_element (off + L[l]) = g l) (R : Nat)
    (hR : ∀ l < L.length, g l < R) {out : List Nat} (ho : out.length = L.length) :
    ∃ U, initPackingIndex false R d off L out = some (U, cnts g L.length R) ∧ U.length = L.length ∧
      ∀ l < L.length, U[l]? = some (displOf (cnts g L.length R) (g l) + (cls g l (g l)).length) := by
  obtain ⟨⟨o, c⟩, h1, h2, h3, h4⟩ := forM'_inv (n := R) (b := packRank false d off L) (s := (out, []))
    (I := fun q (s : List Nat × List Nat) => s.2 = cnts g L.length q ∧ s.1.length = L.length ∧ ∀ l < L.length,
      g l < q → s.1[l]? = some ((cnts g L.length (g l)).sum + (cls g l (g l)).length))
    (by
      rintro q hq ⟨o, c⟩ ⟨h1, h2, h3⟩
      simp only at h1 h2 h3
      obtain ⟨out', e1, e2, e3⟩ := packStep_fwd hg q c.sum h2
      refine ⟨(out', c ++ [(cls g L.length q).length]), ?_, ?_, e2, ?_⟩
      · unfold packRank
        simp only
        rw [e1]
        rfl
      · simp [h1, cnts, List.range_succ]
      · intro l hl hgl
        simp only
        rw [e3 l hl]
        by_cases he : g l = q
        · rw [if_pos he, h1, he]
        · rw [if_neg he]
          exact h3 l hl (by omega))
    ⟨rfl, ho, by omega⟩
  simp only at h2 h3 h4
  refine ⟨o, by unfold initPackingIndex; rw [h1, h2], h3, fun l hl => ?_⟩
  rw [h4 l hl (hR l hl), displOf_cnts]
  have := hR l hl
  omega

/-- The local indices with destination `q`, in the order of the receiver. -/
def sortedCls (L : List Nat) (g : Nat → Nat) (q : Nat) : List Nat :=
  (cls g L.length q).mergeSort fun i j => decide (L.getD i 0 ≤ L.getD j 0)

theorem sortedCls_perm (L : List Nat) (g : Nat → Nat) (q : Nat) : (sortedCls L g q).Perm (cls g L.length q) :=
  List.mergeSort_perm _ _

theorem sortedCls_length (L : List Nat) (g : Nat → Nat) (q : Nat) : (sortedCls L g q).length = (cls g L.length q).length :=
  (sortedCls_perm L g q).length_eq

/-- The packing index. -/
theorem initPackingIndex_back (hg : ∀ l (h : l < L.length), d.rank_global_element (off + L[l]) = g l) (R : Nat)
    (hR : ∀ l < L.length, g l < R) {out : List Nat} (ho : out.length = L.length) :
    ∃ U, initPackingIndex true R d off L out = some (U, cnts g L.length R) ∧ U.length = L.length ∧
      ∀ q < R, ∀ k, k < (cls g L.length q).length → U[displOf (cnts g L.length R) q + k]? = (sortedCls L g q)[k]? := by
  obtain ⟨⟨o, c⟩, h1, h2, h3, h4⟩ := forM'_inv (n := R) (b := packRank true d off L) (s := (out, []))
    (I := fun q (s : List Nat × List Nat) => s.2 = cnts g L.length q ∧ s.1.length = L.length ∧
      s.1.take (cnts g L.length q).sum = (List.range q).flatMap (sortedCls L g))
    (by
      rintro q hq ⟨o, c⟩ ⟨h1, h2, h3⟩
      simp only at h1 h2 h3
      have hle := cnts_sum_le g L.length q
      have e1 := packStep_back hg q c.sum (out := o) (by rw [h2, h1]; exact hle)
      have htk : (o.take c.sum).length = c.sum := by rw [List.length_take, h2, h1]; omega
      refine ⟨(sortSegment L (o.take c.sum ++ cls g L.length q ++ o.drop (c.sum + (cls g L.length q).length)) c.sum
        (cls g L.length q).length, c ++ [(cls g L.length q).length]), ?_, ?_, ?_, ?_⟩
      · unfold packRank
        simp only
        rw [e1]
        rfl
      · simp [h1, cnts, List.range_succ]
      · have hseg : ∀ l : List Nat, c.sum + (cls g L.length q).length ≤ l.length →
            (sortSegment L l c.sum (cls g L.length q).length).length = l.length := by
          intro l hl
          unfold sortSegment
          simp only [List.length_append, List.length_take, List.length_mergeSort, List.length_drop]
          omega
        rw [hseg]
        · simp only [List.length_append, htk, List.length_drop, h2]
          rw [h1]; omega
        · simp only [List.length_append, htk, List.length_drop, h2]
          omega
      · have hsum : (cnts g L.length (q + 1)).sum = c.sum + (cls g L.length q).length := by
          rw [h1]; simp [cnts, List.range_succ]
        rw [hsum]
        unfold sortSegment
        have hA : (o.take c.sum ++ cls g L.length q ++ o.drop (c.sum + (cls g L.length q).length)).take c.sum = o.take c.sum := by
          rw [List.append_assoc, List.take_left' htk]
        have hB : ((o.take c.sum ++ cls g L.length q ++ o.drop (c.sum + (cls g L.length q).length)).drop c.sum).take
            (cls g L.length q).length = cls g L.length q := by
          rw [List.append_assoc, List.drop_left' htk, List.take_left' rfl]
        rw [hA, hB]
        have hC : (o.take c.sum ++ (cls g L.length q).mergeSort fun i j => decide (L.getD i 0 ≤ L.getD j 0)).length =
            c.sum + (cls g L.length q).length := by
          rw [List.length_append, htk, List.length_mergeSort]
        rw [List.take_left' hC, h1, h3, List.range_succ, List.flatMap_append]
        simp [sortedCls])
    ⟨rfl, ho, by simp [cnts]⟩
  simp only at h2 h3 h4
  refine ⟨o, by unfold initPackingIndex; rw [h1, h2], h3, fun q hq k hk => ?_⟩
  rw [displOf_cnts g _ R (by omega)]
  -- the segment of `q` in the concatenation
  have hlen : ∀ Q, ((List.range Q).flatMap (sortedCls L g)).length = (cnts g L.length Q).sum := by
    intro Q
    induction Q with
    | zero => rfl
    | succ Q ih =>
      rw [List.range_succ, List.flatMap_append, List.length_append, ih]
      simp [cnts, List.range_succ, sortedCls_length]
  have hsplit : ∀ Q, q < Q → ((List.range Q).flatMap (sortedCls L g))[(cnts g L.length q).sum + k]? = (sortedCls L g q)[k]? := by
    intro Q
    induction Q with
    | zero => omega
    | succ Q ih =>
      intro h
      rw [List.range_succ, List.flatMap_append]
      by_cases hQ : q < Q
      · rw [List.getElem?_append_left]
        · exact ih hQ
        · have := List.getElem?_eq_getElem (l := sortedCls L g q) (i := k) (by rw [sortedCls_length]; exact hk)
          rw [← ih hQ] at this
          exact (List.getElem?_eq_some_iff.1 this).1
      · have : q = Q := by omega
        subst this
        rw [List.getElem?_append_right (by rw [hlen]; omega), hlen]
        simp
  have hk2 : (cnts g L.length q).sum + k < (cnts g L.length R).sum := by
    have := List.getElem?_eq_getElem (l := sortedCls L g q) (i := k) (by rw [sortedCls_length]; exact hk)
    rw [← hsplit R hq] at this
    have := (List.getElem?_eq_some_iff.1 this).1
    rwa [hlen] at this
  rw [← hsplit R hq, ← h4, List.getElem?_take_of_lt hk2]

end

/-! ### pairing senders and receivers -/

theorem nat_sorted_ext {l m : List Nat} (hl : l.Pairwise (· < ·)) (hm : m.Pairwise (· < ·)) (h : ∀ a, a ∈ l ↔ a ∈ m) :
    l = m := by
  have nd : ∀ {l : List Nat}, l.Pairwise (· < ·) → l.Nodup := fun h => h.imp (by intro a b h; omega)
  exact List.Perm.eq_of_pairwise (fun a b _ _ h1 h2 => absurd h1 (by omega)) hl hm
    ((List.perm_ext_iff_of_nodup (nd hl) (nd hm)).2 h)

/-- The sub-matrix indices owned by rank `r`. -/
def ownList (o : Nat → Nat) (n r : Nat) : List Nat := (List.range n).filter fun s => decide (o s = r)

theorem mem_ownList {o : Nat → Nat} {n r s : Nat} : s ∈ ownList o n r ↔ s < n ∧ o s = r := by
  simp [ownList]

theorem ownList_sorted (o : Nat → Nat) (n r : Nat) : (ownList o n r).Pairwise (· < ·) :=
  List.Pairwise.filter _ List.pairwise_lt_range

/-- The `k`-th vector the receiver `r` expects from `q` is the `k`-th vector the sender `q` packs for `r`. -/
theorem pairing {n : Nat} {perm inv : List Nat} (hp : C34.IsPerm n perm) (hi : C34.IsPerm n inv)
    (h1 : ∀ i (h : i < perm.length), inv[perm[i]]? = some i) (h2 : ∀ j (h : j < inv.length), perm[inv[j]]? = some j)
    (o : Nat → Nat) (r q : Nat) :
    let Lr := (ownList o n r).map fun s => perm.getD s 0
    let gr := fun l => o (Lr.getD l 0)
    let Lq := (ownList o n q).map fun s => inv.getD s 0
    let gq := fun m => o (Lq.getD m 0)
    (cls gr Lr.length q).map (fun l => (ownList o n r).getD l 0) = (sortedCls Lq gq r).map fun m => Lq.getD m 0 := by
  intro Lr gr Lq gq
  have hperm : ∀ s, s < n → perm.getD s 0 < n ∧ inv.getD (perm.getD s 0) 0 = s := by
    intro s hs
    have hs' : s < perm.length := by rw [hp.length]; exact hs
    have e : perm.getD s 0 = perm[s] := by simp [List.getD, hs']
    rw [e]
    exact ⟨hp.lt (List.getElem_mem hs'), by rw [List.getD, h1 s hs']; rfl⟩
  have hinv : ∀ s, s < n → inv.getD s 0 < n ∧ perm.getD (inv.getD s 0) 0 = s := by
    intro s hs
    have hs' : s < inv.length := by rw [hi.length]; exact hs
    have e : inv.getD s 0 = inv[s] := by simp [List.getD, hs']
    rw [e]
    exact ⟨hi.lt (List.getElem_mem hs'), by rw [List.getD, h2 s hs']; rfl⟩
  have hLr : ∀ l, l < (ownList o n r).length → Lr.getD l 0 = perm.getD ((ownList o n r).getD l 0) 0 := by
    intro l hl
    simp [Lr, List.getD, hl]
  have hLq : ∀ l, l < (ownList o n q).length → Lq.getD l 0 = inv.getD ((ownList o n q).getD l 0) 0 := by
    intro l hl
    simp [Lq, List.getD, hl]
  have hlr : Lr.length = (ownList o n r).length := by simp [Lr]
  have hlq : Lq.length = (ownList o n q).length := by simp [Lq]
  have hget : ∀ (l : List Nat) (k : Nat), k < l.length → l.getD k 0 ∈ l := by
    intro l k hk
    simp [List.getD, hk]
  -- membership
  have memL : ∀ s, s ∈ (cls gr Lr.length q).map (fun l => (ownList o n r).getD l 0) ↔
      s < n ∧ o s = r ∧ o (perm.getD s 0) = q := by
    intro s
    simp only [List.mem_map, cls, List.mem_filter, List.mem_range, decide_eq_true_eq]
    constructor
    · rintro ⟨l, ⟨hl, hg⟩, rfl⟩
      rw [hlr] at hl
      obtain ⟨m1, m2⟩ := mem_ownList.1 (hget _ l hl)
      refine ⟨m1, m2, ?_⟩
      rw [← hLr l hl]; exact hg
    · rintro ⟨a, b, c⟩
      obtain ⟨l, hl, e⟩ := List.getElem_of_mem (mem_ownList.2 ⟨a, b⟩)
      have e' : (ownList o n r).getD l 0 = s := by simp [List.getD, hl, e]
      refine ⟨l, ⟨by rw [hlr]; exact hl, ?_⟩, e'⟩
      show o (Lr.getD l 0) = q
      rw [hLr l hl, e', c]
  have memR : ∀ s, s ∈ (sortedCls Lq gq r).map (fun m => Lq.getD m 0) ↔ s < n ∧ o s = r ∧ o (perm.getD s 0) = q := by
    intro s
    simp only [List.mem_map, (sortedCls_perm Lq gq r).mem_iff, cls, List.mem_filter, List.mem_range, decide_eq_true_eq]
    constructor
    · rintro ⟨m, ⟨hm, hg⟩, rfl⟩
      rw [hlq] at hm
      obtain ⟨m1, m2⟩ := mem_ownList.1 (hget _ m hm)
      have := hinv _ m1
      refine ⟨by rw [hLq m hm]; exact this.1, hg, ?_⟩
      rw [hLq m hm, this.2, m2]
    · rintro ⟨a, b, c⟩
      obtain ⟨p1, p2⟩ := hperm s a
      obtain ⟨m, hm, e⟩ := List.getElem_of_mem (mem_ownList.2 ⟨p1, c⟩)
      have e' : (ownList o n q).getD m 0 = perm.getD s 0 := by simp only [List.getD]; rw [List.getElem?_eq_getElem hm, e]; rfl
      have e2 : Lq.getD m 0 = s := by rw [hLq m hm, e', p2]
      exact ⟨m, ⟨by rw [hlq]; exact hm, by show o (Lq.getD m 0) = r; rw [e2, b]⟩, e2⟩
  refine nat_sorted_ext ?_ ?_ fun a => (memL a).trans (memR a).symm
  · rw [List.pairwise_map]
    have : (cls gr Lr.length q).Pairwise (· < ·) := List.Pairwise.filter _ List.pairwise_lt_range
    refine this.imp_of_mem ?_
    intro a b ha hb hab
    simp only [cls, List.mem_filter, List.mem_range, hlr] at ha hb
    have := List.pairwise_iff_getElem.1 (ownList_sorted o n r) a b ha.1 hb.1 hab
    simpa [List.getD, ha.1, hb.1] using this
  · rw [List.pairwise_map]
    have hs : (sortedCls Lq gq r).Pairwise fun i j => decide (Lq.getD i 0 ≤ Lq.getD j 0) = true :=
      List.pairwise_mergeSort (le := fun i j => decide (Lq.getD i 0 ≤ Lq.getD j 0))
        (by intro a b c h1 h2; simp only [decide_eq_true_eq] at *; omega)
        (by intro a b; simp only [Bool.or_eq_true, decide_eq_true_eq]; omega) _
    have hnd : (sortedCls Lq gq r).Nodup :=
      (sortedCls_perm Lq gq r).nodup_iff.2 (List.Nodup.filter _ List.nodup_range)
    refine (List.Pairwise.and hs hnd).imp_of_mem ?_
    rintro a b ha hb ⟨h3, h4⟩
    simp only [decide_eq_true_eq] at h3
    rcases Nat.lt_or_eq_of_le h3 with h | h
    · exact h
    · exfalso
      rw [(sortedCls_perm Lq gq r).mem_iff] at ha hb
      simp only [cls, List.mem_filter, List.mem_range, hlq] at ha hb
      obtain ⟨x1, _⟩ := mem_ownList.1 (hget _ a ha.1)
      obtain ⟨x2, _⟩ := mem_ownList.1 (hget _ b hb.1)
      rw [hLq a ha.1, hLq b hb.1] at h
      have h5 := (hinv _ x1).2
      rw [h, (hinv _ x2).2] at h5
      apply h4
      by_contra hne
      have hsorted := List.pairwise_iff_getElem.1 (ownList_sorted o n q)
      simp only [List.getD, List.getElem?_eq_getElem ha.1, List.getElem?_eq_getElem hb.1, Option.getD_some] at h5
      rcases Nat.lt_or_gt_of_ne hne with hlt | hlt
      · have := hsorted a b ha.1 hb.1 hlt; omega
      · have := hsorted b a hb.1 ha.1 hlt; omega

end DLAF
