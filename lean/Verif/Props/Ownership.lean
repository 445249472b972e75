import Verif.Lemmas.Ownership2
/- C63: memory is freed exactly once, when its last owner goes, and live views are inside live memory. -/
namespace DLAF.Own
variable {os : List Op} {m : Mem}

/-- C63.  After every history of chunks and views, no pointer has been given to `deallocate` twice, and only memory the library allocated: never memory of the user. -/
theorem C63_freed_at_most_once (h : run .empty os = some m) : m.freed.Nodup ∧ ∀ p ∈ m.freed, ∃ a < m.sizes.length, p = .heap a := by
  have hi := run_inv inv_empty h
  constructor
  · rw [List.nodup_iff_count]
    intro p
    cases p with
    | user u => rw [List.count_eq_zero.2 (hi.nouser u)]; omega
    | heap a =>
      have := hi.acc a
      unfold b2n at this
      split at this <;> omega
  · intro p hp
    cases p with
    | user u => exact absurd hp (hi.nouser u)
    | heap a =>
      refine ⟨a, ?_, rfl⟩
      have := hi.acc a
      have h1 : 0 < m.freed.count (.heap a) := List.count_pos_iff.2 hp
      unfold b2n at this
      split at this
      · exact of_decide_eq_true (by assumption)
      · omega

/-- C63.  After every history, an allocation has been freed exactly when no live chunk owns it and no live view addresses it: it is freed when its last owner goes, neither
earlier nor later. -/
theorem C63_freed_iff_unowned (h : run .empty os = some m) {a : Nat} (ha : a < m.sizes.length) : m.Freed a ↔ ¬ m.Owned a := by
  have hi := run_inv inv_empty h
  have hacc := hi.acc a
  rw [show b2n (decide (a < m.sizes.length)) = 1 by simp [b2n, ha]] at hacc
  simp only [List.countP_nil, Nat.add_zero] at hacc
  have own : ∀ c : Chunk, c.Ok → c.ptr = some (.heap a) → ownsC a (some c) = true := by
    intro c hc hp
    unfold Chunk.Ok at hc
    unfold ownsC
    split at hc
    · rename_i h1; simp [h1, hp]
    · exact absurd hp (hc a)
  constructor
  · intro hf ho
    have h1 : 0 < m.freed.count (.heap a) := List.count_pos_iff.2 hf
    rcases ho with ⟨i, c, hc, hp⟩ | ⟨v, i, j, hv⟩
    · obtain ⟨hl, he⟩ := join_some hc
      have : 0 < m.chunks.countP (ownsC a) := List.countP_pos_iff.2 ⟨_, List.getElem_mem hl, by rw [he]; exact own c (hi.okC i c hc) hp⟩
      omega
    · unfold Mem.addr at hv
      obtain ⟨x, hx, hv⟩ := Option.bind_eq_some_iff.1 hv
      obtain ⟨k, hk, hv⟩ := Option.bind_eq_some_iff.1 hv
      obtain ⟨c, hc, hv⟩ := Option.bind_eq_some_iff.1 hv
      obtain ⟨p, hp, hv⟩ := Option.map_eq_some_iff.1 hv
      cases hv
      obtain ⟨hl, he⟩ := join_some hc
      have : 0 < m.ctls.countP (ownsK a) := List.countP_pos_iff.2 ⟨_, List.getElem_mem hl, by rw [he]; exact own c.chunk (hi.okK k c hc) hp⟩
      omega
  · intro ho
    by_contra hf
    have h1 : m.freed.count (.heap a) = 0 := List.count_eq_zero.2 hf
    have : 0 < m.chunks.countP (ownsC a) ∨ 0 < m.ctls.countP (ownsK a) := by omega
    rcases this with hp | hp
    · obtain ⟨o, hm, hp⟩ := List.countP_pos_iff.1 hp
      cases o with
      | none => cases hp
      | some c =>
        obtain ⟨i, hl, he⟩ := List.getElem_of_mem hm
        refine ho (Or.inl ⟨i, c, ?_, ?_⟩)
        · unfold Mem.chunk; rw [List.getElem?_eq_getElem hl, he]; rfl
        · simp only [ownsC, Bool.and_eq_true, decide_eq_true_eq] at hp; exact hp.2
    · obtain ⟨o, hm, hp⟩ := List.countP_pos_iff.1 hp
      cases o with
      | none => cases hp
      | some c =>
        obtain ⟨k, hl, he⟩ := List.getElem_of_mem hm
        have hk : m.ctl k = some c := by unfold Mem.ctl; rw [List.getElem?_eq_getElem hl, he]; rfl
        have hcnt := hi.cnt k
        have hpos := hi.pos k c hk
        rw [hk] at hcnt
        simp only [Option.elim, List.count_nil, Nat.add_zero] at hcnt
        obtain ⟨o, hm, hr⟩ := List.countP_pos_iff.1 (show 0 < m.views.countP (refs k) by omega)
        cases o with
        | none => cases hr
        | some x =>
          obtain ⟨v, hl', he'⟩ := List.getElem_of_mem hm
          have hv : m.view v = some x := by unfold Mem.view; rw [List.getElem?_eq_getElem hl', he']; rfl
          simp only [refs, decide_eq_true_eq] at hr
          simp only [ownsK, ownsC, Bool.and_eq_true, decide_eq_true_eq] at hp
          refine ho (Or.inr ⟨v, 0, x.off + 0, ?_⟩)
          unfold Mem.addr
          rw [hv, Option.bind_some, hr, Option.bind_some, hk, Option.bind_some, hp.2]
          rfl

/-- C63.  When all the objects of a history have been destroyed, everything the library allocated has been freed. -/
theorem C63_no_leak (h : run .empty os = some m) (hn : m.NoObjects) {a : Nat} (ha : a < m.sizes.length) : m.Freed a := by
  rw [C63_freed_iff_unowned h ha]
  rintro (⟨i, c, hc, -⟩ | ⟨v, i, j, hv⟩)
  · rw [hn.1 i] at hc; cases hc
  · unfold Mem.addr at hv
    rw [hn.2 v] at hv
    cases hv

/-- C63.  After every history that respects the documented preconditions, every element of every live view is inside a block that has not been freed. -/
theorem C63_live_views_in_live_memory (us : Nat → Int) (h : run .empty os = some m) (hs : ∀ o ∈ os, o.Safe us) {v : Nat} {x : MView} (hv : m.view v = some x) {i : Int}
    (h0 : 0 ≤ i) (h1 : i < x.size) : ∃ p s j, m.addr v i = some (p, j) ∧ m.blockSize us p = some s ∧ 0 ≤ j ∧ j < s ∧ p ∉ m.freed := by
  have hi := run_inv inv_empty h
  obtain ⟨k, c, p, s, a1, a2, a3, a4, a5, a6⟩ := run_viewOk (us := us) inv_empty h hs (fun v x hx => by cases hx) v x hv (by omega)
  have ha : m.addr v i = some (p, x.off + i) := by
    unfold Mem.addr
    rw [hv, Option.bind_some, a1, Option.bind_some, a2, Option.bind_some, a3]
    rfl
  refine ⟨p, s, x.off + i, ha, a4, by omega, by omega, ?_⟩
  cases p with
  | user u => exact hi.nouser u
  | heap a =>
    intro hf
    obtain ⟨b, hb, e⟩ := (C63_freed_at_most_once h).2 _ hf
    cases e
    exact (C63_freed_iff_unowned h hb).1 hf (Or.inr ⟨v, i, _, ha⟩)

/-- C63.  An operation changes neither the addresses nor the size of the views it does not write, whatever it frees. -/
theorem C63_other_views_unchanged (h : run .empty os = some m) {o : Op} {m' : Mem} (hs : step m o = some m') {v : Nat} {x : MView} (hv : m.view v = some x) (hw : v ∉ o.writes) :
    m'.view v = some x ∧ ∀ i, m'.addr v i = m.addr v i := by
  have hi := run_inv inv_empty h
  have e := step_view hs hw (join_some hv).1
  rw [hv] at e
  exact ⟨e, fun i => same_addr hi (step_inv hi hs) (step_same hs).1 hv e rfl i i rfl⟩

/-- C63.  Copies, moves and sub-views address the memory of the view they are made from; the new view is the last one. -/
theorem C63_new_views (h : run .empty os = some m) {v : Nat} {x : MView} (hv : m.view v = some x) :
    (∀ m', step m (.viewCopy v) = some m' → m'.view m.views.length = some x ∧ ∀ i, m'.addr m.views.length i = m.addr v i) ∧
    (∀ m', step m (.viewMove v) = some m' → m'.view m.views.length = some x ∧ (∀ i, m'.addr m.views.length i = m.addr v i) ∧ m'.view v = some ⟨none, 0, 0⟩) ∧
    (∀ off n m', step m (.viewSub v off n) = some m' → off + n ≤ x.size ∧ ∃ y, m'.view m.views.length = some y ∧ y.size = n ∧
      (0 < n → ∀ i, m'.addr m.views.length i = m.addr v (off + i))) := by
  have hi := run_inv inv_empty h
  refine ⟨fun m' hs => ?_, fun m' hs => ?_, fun off n m' hs => ?_⟩
  · have hs' := hs
    simp only [step, hv, Option.map_some, Option.some.injEq] at hs'
    have e : m'.view m.views.length = some x := by rw [← hs', view_push, if_pos (by rw [(retain_fields _ _).1])]
    exact ⟨e, fun i => same_addr hi (step_inv hi hs) (step_same hs).1 hv e rfl i i rfl⟩
  · have hs' := hs
    simp only [step, hv, Option.map_some, Option.some.injEq] at hs'
    have e : m'.view m.views.length = some x := by rw [← hs', view_push, if_pos (by simp)]
    refine ⟨e, fun i => same_addr hi (step_inv hi hs) (step_same hs).1 hv e rfl i i rfl, ?_⟩
    obtain ⟨hl, -⟩ := join_some hv
    rw [← hs', view_push, if_neg (by simp; omega)]
    show ((m.views.set v (some .moved))[v]?).join = _
    rw [join_set hl, if_pos rfl]
    rfl
  · have hs' := hs
    simp only [step, hv, Option.bind_some] at hs'
    split at hs'
    · rename_i hle
      refine ⟨hle, ?_⟩
      split at hs'
      · have hs' := Option.some.inj hs'
        have e : m'.view m.views.length = some ⟨x.mem, off + x.off, n⟩ := by rw [← hs', view_push, if_pos (by rw [(retain_fields _ _).1])]
        exact ⟨_, e, rfl, fun _ i => same_addr hi (step_inv hi hs) (step_same hs).1 hv e rfl (off + i) i (by show off + x.off + i = _; omega)⟩
      · rename_i h0
        have hs' := Option.some.inj hs'
        exact ⟨⟨none, 0, n⟩, by rw [← hs', view_push, if_pos rfl], rfl, fun hn => absurd hn h0⟩
    · cases hs'

/-- C63.  After `v = w` and `v = std::move(w)` the view `v` addresses what `w` addressed (its old memory is released); the moved-from view is empty. -/
theorem C63_assigned_views (h : run .empty os = some m) {v w : Nat} {y : MView} (hw : m.view w = some y) :
    (∀ m', step m (.viewAssign v w) = some m' → m'.view v = some y ∧ ∀ i, m'.addr v i = m.addr w i) ∧
    (∀ m', v ≠ w → step m (.viewMoveAssign v w) = some m' → m'.view v = some y ∧ (∀ i, m'.addr v i = m.addr w i) ∧ m'.view w = some ⟨none, 0, 0⟩) := by
  have hi := run_inv inv_empty h
  refine ⟨fun m' hs => ?_, fun m' hne hs => ?_⟩
  · obtain ⟨a, ha, hs'⟩ := Option.bind_eq_some_iff.1 hs
    rw [hw, Option.map_some] at hs'
    have hs' := Option.some.inj hs'
    have e : m'.view v = some y := by
      rw [← hs']
      unfold Mem.view
      dsimp only
      rw [(release_fields _ _).1, (retain_fields _ _).1, join_set (join_some ha).1, if_pos rfl]
    exact ⟨e, fun i => same_addr hi (step_inv hi hs) (step_same hs).1 hw e rfl i i rfl⟩
  · obtain ⟨a, ha, hs'⟩ := Option.bind_eq_some_iff.1 hs
    rw [hw, Option.map_some] at hs'
    have hs' := Option.some.inj hs'
    dsimp only at hs'
    rw [if_neg hne, if_neg hne, if_neg hne] at hs'
    have hl := (join_some ha).1
    have e : m'.view v = some y := by
      rw [← hs']
      unfold Mem.view
      dsimp only
      rw [(release_fields _ _).1, join_set (by rw [List.length_set]; exact hl), if_pos rfl]
    refine ⟨e, fun i => same_addr hi (step_inv hi hs) (step_same hs).1 hw e rfl i i rfl, ?_⟩
    rw [← hs']
    unfold Mem.view
    dsimp only
    rw [(release_fields _ _).1, join_set (by rw [List.length_set]; exact hl), if_neg hne, join_set (join_some hw).1, if_pos rfl]
    rfl

/-- Finding F32: a sub-view with a negative offset is accepted (only the end of the range is asserted), and addresses memory outside the allocation. -/
theorem C63_negative_offset_accepted :
    ∃ m, run .empty [.viewNew 4, .viewSub 0 (-3) 2] = some m ∧ m.addr 1 0 = some (.heap 0, -3) := ⟨_, rfl, by decide⟩

/-- Finding F32: move-assignment of a chunk to itself frees its memory and leaves it empty. -/
theorem C63_chunk_self_move_frees :
    ∃ m, run .empty [.chunkNew 4, .chunkAssign 0 0] = some m ∧ m.Freed 0 ∧ (m.chunk 0).map (fun c => c.ptr) = some none :=
  ⟨_, rfl, List.mem_singleton.2 rfl, by decide⟩

/- Non-vacuity: a view, a sub-view of it and a copy of that; the first two go; the allocation stays until the copy goes, at the same addresses; the user's block stays. -/
private def exOps : List Op :=
  [.viewNew 10, .viewSub 0 3 5, .viewCopy 1, .viewExt (some 7) 4, .chunkNew 6, .chunkMove 0, .chunkDrop 0, .viewMoveAssign 1 3, .viewDrop 0]

example : (∀ o ∈ exOps, o.Safe fun _ => 4) ∧ ∃ m, run .empty exOps = some m ∧ m.freed = [] ∧ m.sizes = [10, 6] ∧ m.addr 2 1 = some (.heap 0, 4) ∧ m.addr 1 2 = some (.user 7, 2) ∧
    ∃ m', run m [.viewDrop 2, .viewDrop 1, .chunkDrop 1] = some m' ∧ m'.freed = [.heap 1, .heap 0] := by
  refine ⟨?_, _, rfl, rfl, rfl, by decide, by decide, _, rfl, rfl⟩
  intro o ho
  simp only [exOps, List.mem_cons, List.not_mem_nil, or_false] at ho
  rcases ho with rfl | rfl | rfl | rfl | rfl | rfl | rfl | rfl | rfl <;> first | trivial | exact (by decide : (0 : Int) ≤ 3) | exact fun _ => ⟨7, rfl, Int.le_refl 4⟩

end DLAF.Own
