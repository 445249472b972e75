import Verif.Lemmas.Ownership
/- Lemmas for C63: what the operations do to control blocks and addresses. -/
namespace DLAF.Own
variable {m m' : Mem}

theorem dealloc_ctl (c : Chunk) (k : Nat) : (c.deallocate m).ctl k = m.ctl k := by unfold Mem.ctl; rw [(dealloc_fields c m).2.2.1]

/-- The chunk of the control block `k` is the same in `m'` as in `m`, if the control block is alive in both. -/
def SameCtl (m m' : Mem) : Prop := ∀ k c', k < m.ctls.length → m'.ctl k = some c' → ∃ c, m.ctl k = some c ∧ c.chunk = c'.chunk

theorem SameCtl.of_eq (h : ∀ k < m.ctls.length, m'.ctl k = m.ctl k) : SameCtl m m' := fun k c' hk hc => ⟨c', by rw [← h k hk, hc], rfl⟩

theorem ctl_set_iff {k j : Nat} {x : Option Ctl} (h : k < m.ctls.length) : ({ m with ctls := m.ctls.set k x } : Mem).ctl j = if k = j then x else m.ctl j := join_set h

theorem retain_same (k : Option Nat) (m : Mem) : SameCtl m (retain k m) := by
  intro j c' hj hc
  unfold retain at hc
  cases k with
  | none => exact ⟨c', hc, rfl⟩
  | some k =>
    dsimp only at hc
    cases hx : m.ctl k with
    | none => rw [hx] at hc; exact ⟨c', hc, rfl⟩
    | some x =>
      rw [hx] at hc
      dsimp only at hc
      rw [ctl_set_iff (join_some hx).1] at hc
      split at hc
      · rename_i e; subst e; cases hc; exact ⟨x, hx, rfl⟩
      · exact ⟨c', hc, rfl⟩

theorem release_same (k : Option Nat) (m : Mem) : SameCtl m (release k m) := by
  intro j c' hj hc
  unfold release at hc
  cases k with
  | none => exact ⟨c', hc, rfl⟩
  | some k =>
    dsimp only at hc
    cases hx : m.ctl k with
    | none => rw [hx] at hc; exact ⟨c', hc, rfl⟩
    | some x =>
      rw [hx] at hc
      dsimp only at hc
      split at hc
      · rw [dealloc_ctl, ctl_set_iff (join_some hx).1] at hc
        split at hc
        · cases hc
        · exact ⟨c', hc, rfl⟩
      · rw [ctl_set_iff (join_some hx).1] at hc
        split at hc
        · rename_i e; subst e; cases hc; exact ⟨x, hx, rfl⟩
        · exact ⟨c', hc, rfl⟩

theorem retain_length (k : Option Nat) (m : Mem) : (retain k m).ctls.length = m.ctls.length := by
  unfold retain
  split
  · rfl
  · split
    · rfl
    · exact List.length_set

theorem new_fields {n : Int} {p : Chunk × Mem} (h : Chunk.new n m = some p) : p.2.ctls = m.ctls ∧ p.2.views = m.views ∧ p.2.chunks = m.chunks ∧
    ∃ l, p.2.sizes = m.sizes ++ l := by
  unfold Chunk.new at h
  split at h
  · cases h
  · split at h
    · cases h; exact ⟨rfl, rfl, rfl, [], by simp⟩
    · cases h; exact ⟨rfl, rfl, rfl, _, rfl⟩

theorem share_ctl {c : Chunk} {k : Nat} (hk : k < m.ctls.length) : (share c m).2.ctl k = m.ctl k := by
  show ((m.ctls ++ [some ⟨c, 1⟩])[k]?).join = _
  rw [join_push, if_neg (by omega)]
  rfl

theorem share_ctl_new {c : Chunk} : (share c m).2.ctl m.ctls.length = some ⟨c, 1⟩ := by
  show ((m.ctls ++ [some ⟨c, 1⟩])[m.ctls.length]?).join = _
  rw [join_push, if_pos rfl]

/-- What an operation does to the control blocks and the allocations. -/
theorem step_same {o : Op} (hs : step m o = some m') : SameCtl m m' ∧ ∃ l, m'.sizes = m.sizes ++ l := by
  have z : ∃ l : List Int, m.sizes = m.sizes ++ l := ⟨[], by simp⟩
  cases o with
  | chunkNew n =>
    obtain ⟨p, hp, rfl⟩ := Option.map_eq_some_iff.1 hs
    obtain ⟨h1, -, -, h2⟩ := new_fields hp
    exact ⟨.of_eq fun k _ => by unfold Mem.ctl; dsimp only; rw [h1], h2⟩
  | chunkExt u n => cases hs; exact ⟨.of_eq fun k _ => rfl, z⟩
  | chunkMove i =>
    obtain ⟨c, hc, rfl⟩ := Option.map_eq_some_iff.1 hs
    exact ⟨.of_eq fun k _ => rfl, z⟩
  | chunkAssign i j =>
    obtain ⟨a, ha, hs⟩ := Option.bind_eq_some_iff.1 hs
    obtain ⟨b, hb, rfl⟩ := Option.map_eq_some_iff.1 hs
    exact ⟨.of_eq fun k _ => dealloc_ctl a k, by dsimp only; rw [(dealloc_fields a m).2.2.2]; exact z⟩
  | chunkDrop i =>
    obtain ⟨a, ha, rfl⟩ := Option.map_eq_some_iff.1 hs
    exact ⟨.of_eq fun k _ => dealloc_ctl a k, by dsimp only; rw [(dealloc_fields a m).2.2.2]; exact z⟩
  | viewEmpty => cases hs; exact ⟨.of_eq fun k _ => rfl, z⟩
  | viewNew n =>
    simp only [step] at hs
    split at hs
    · cases hs
    · split at hs
      · obtain ⟨p, hp, rfl⟩ := Option.map_eq_some_iff.1 hs
        obtain ⟨h1, -, -, h2⟩ := new_fields hp
        refine ⟨.of_eq fun k hk => ?_, h2⟩
        show (share p.1 p.2).2.ctl k = _
        rw [share_ctl (by rw [h1]; exact hk)]
        unfold Mem.ctl; rw [h1]
      · cases hs; exact ⟨.of_eq fun k _ => rfl, z⟩
  | viewExt u n =>
    simp only [step] at hs
    split at hs
    · cases hs
    · split at hs
      · cases hs; exact ⟨.of_eq fun k hk => share_ctl hk, z⟩
      · cases hs; exact ⟨.of_eq fun k _ => rfl, z⟩
  | viewCopy v =>
    obtain ⟨a, ha, rfl⟩ := Option.map_eq_some_iff.1 hs
    exact ⟨fun k c' hk hc => retain_same a.mem m k c' hk hc, by show ∃ l, (retain a.mem m).sizes = _; rw [(retain_fields _ _).2.2]; exact z⟩
  | viewMove v =>
    obtain ⟨a, ha, rfl⟩ := Option.map_eq_some_iff.1 hs
    exact ⟨.of_eq fun k _ => rfl, z⟩
  | viewSub v off n =>
    obtain ⟨a, ha, hs⟩ := Option.bind_eq_some_iff.1 hs
    split at hs
    · split at hs
      · cases hs
        exact ⟨fun k c' hk hc => retain_same a.mem m k c' hk hc, by show ∃ l, (retain a.mem m).sizes = _; rw [(retain_fields _ _).2.2]; exact z⟩
      · cases hs; exact ⟨.of_eq fun k _ => rfl, z⟩
    · cases hs
  | viewAssign v w =>
    obtain ⟨a, ha, hs⟩ := Option.bind_eq_some_iff.1 hs
    obtain ⟨b, hb, rfl⟩ := Option.map_eq_some_iff.1 hs
    refine ⟨fun k c' hk hc => ?_, by dsimp only; rw [(release_fields _ _).2.2, (retain_fields _ _).2.2]; exact z⟩
    obtain ⟨c1, e1, e2⟩ := release_same a.mem (retain b.mem m) k c' (by rw [retain_length]; exact hk) hc
    obtain ⟨c2, e3, e4⟩ := retain_same b.mem m k c1 hk e1
    exact ⟨c2, e3, e4.trans e2⟩
  | viewMoveAssign v w =>
    obtain ⟨a, ha, hs⟩ := Option.bind_eq_some_iff.1 hs
    obtain ⟨b, hb, rfl⟩ := Option.map_eq_some_iff.1 hs
    exact ⟨fun k c' hk hc => release_same _ m k c' hk hc, by dsimp only; rw [(release_fields _ _).2.2]; exact z⟩
  | viewDrop v =>
    obtain ⟨a, ha, rfl⟩ := Option.map_eq_some_iff.1 hs
    exact ⟨fun k c' hk hc => release_same _ m k c' hk hc, by dsimp only; rw [(release_fields _ _).2.2]; exact z⟩

/-- A view alive in both has the same addresses. -/
theorem same_addr (h : Inv m [] []) (h' : Inv m' [] []) (hs : SameCtl m m') {v w : Nat} {x y : MView} (hv : m.view v = some x) (hw : m'.view w = some y)
    (he : y.mem = x.mem) (i j : Int) (hij : y.off + j = x.off + i) : m'.addr w j = m.addr v i := by
  unfold Mem.addr
  rw [hv, hw, Option.bind_some, Option.bind_some, he]
  cases hk : x.mem with
  | none => rfl
  | some k =>
    obtain ⟨c, hc⟩ := Option.isSome_iff_exists.1 (h.ref hv hk)
    obtain ⟨c', hc'⟩ := Option.isSome_iff_exists.1 (h'.ref hw (he.trans hk))
    obtain ⟨c2, e1, e2⟩ := hs k c' (join_some hc).1 hc'
    rw [hc] at e1
    cases e1
    rw [Option.bind_some, Option.bind_some, hc, hc', Option.bind_some, Option.bind_some, e2, hij]

/-- The views that an operation does not write are the same after it. -/
theorem step_view {o : Op} (hs : step m o = some m') {v : Nat} (hv : v ∉ o.writes) (hl : v < m.views.length) : m'.view v = m.view v := by
  have push : ∀ (x : MView) (m1 : Mem), m1.views = m.views → (pushView x m1).view v = m.view v := by
    intro x m1 e
    show ((m1.views ++ [some x])[v]?).join = _
    rw [join_push, e, if_neg (by omega)]
    rfl
  cases o with
  | chunkNew n =>
    obtain ⟨p, hp, rfl⟩ := Option.map_eq_some_iff.1 hs
    obtain ⟨-, h1, -⟩ := new_fields hp
    unfold Mem.view; dsimp only; rw [h1]
  | chunkExt u n => cases hs; rfl
  | chunkMove i =>
    obtain ⟨c, hc, rfl⟩ := Option.map_eq_some_iff.1 hs
    rfl
  | chunkAssign i j =>
    obtain ⟨a, ha, hs⟩ := Option.bind_eq_some_iff.1 hs
    obtain ⟨b, hb, rfl⟩ := Option.map_eq_some_iff.1 hs
    unfold Mem.view; dsimp only; rw [(dealloc_fields a m).2.1]
  | chunkDrop i =>
    obtain ⟨a, ha, rfl⟩ := Option.map_eq_some_iff.1 hs
    unfold Mem.view; dsimp only; rw [(dealloc_fields a m).2.1]
  | viewEmpty => cases hs; exact push _ _ rfl
  | viewNew n =>
    simp only [step] at hs
    split at hs
    · cases hs
    · split at hs
      · obtain ⟨p, hp, rfl⟩ := Option.map_eq_some_iff.1 hs
        exact push _ _ (new_fields hp).2.1
      · cases hs; exact push _ _ rfl
  | viewExt u n =>
    simp only [step] at hs
    split at hs
    · cases hs
    · split at hs
      · cases hs; exact push _ _ rfl
      · cases hs; exact push _ _ rfl
  | viewCopy w =>
    obtain ⟨a, ha, rfl⟩ := Option.map_eq_some_iff.1 hs
    exact push _ _ (retain_fields _ _).1
  | viewMove w =>
    obtain ⟨a, ha, rfl⟩ := Option.map_eq_some_iff.1 hs
    have : v ≠ w := by simpa [Op.writes] using hv
    show ((m.views.set w (some .moved) ++ [some a])[v]?).join = _
    rw [join_push, List.length_set, if_neg (by omega), join_set (join_some ha).1, if_neg (fun h => this h.symm)]
    rfl
  | viewSub w off n =>
    obtain ⟨a, ha, hs⟩ := Option.bind_eq_some_iff.1 hs
    split at hs
    · split at hs
      · cases hs; exact push _ _ (retain_fields _ _).1
      · cases hs; exact push _ _ rfl
    · cases hs
  | viewAssign x w =>
    obtain ⟨a, ha, hs⟩ := Option.bind_eq_some_iff.1 hs
    obtain ⟨b, hb, rfl⟩ := Option.map_eq_some_iff.1 hs
    have : v ≠ x := by simpa [Op.writes] using hv
    unfold Mem.view
    dsimp only
    rw [(release_fields _ _).1, (retain_fields _ _).1, join_set (join_some ha).1, if_neg (fun h => this h.symm)]
  | viewMoveAssign x w =>
    obtain ⟨a, ha, hs⟩ := Option.bind_eq_some_iff.1 hs
    obtain ⟨b, hb, rfl⟩ := Option.map_eq_some_iff.1 hs
    have : v ≠ x ∧ v ≠ w := by simpa [Op.writes] using hv
    unfold Mem.view
    dsimp only
    rw [(release_fields _ _).1, join_set (by rw [List.length_set]; exact (join_some ha).1), if_neg (fun h => this.1 h.symm), join_set (join_some hb).1,
      if_neg (fun h => this.2 h.symm)]
  | viewDrop w =>
    obtain ⟨a, ha, rfl⟩ := Option.map_eq_some_iff.1 hs
    have : v ≠ w := by simpa [Op.writes] using hv
    unfold Mem.view
    dsimp only
    rw [(release_fields _ _).1, join_set (join_some ha).1, if_neg (fun h => this h.symm)]

/-- The view `x` is inside a block. -/
def ViewOk (us : Nat → Int) (m : Mem) (x : MView) : Prop :=
  0 < x.size → ∃ k c p s, x.mem = some k ∧ m.ctl k = some c ∧ c.chunk.ptr = some p ∧ m.blockSize us p = some s ∧ 0 ≤ x.off ∧ x.off + x.size ≤ s

variable {us : Nat → Int}

theorem ViewOk.mono {x : MView} (h : ViewOk us m x) (hl : ∃ l, m'.sizes = m.sizes ++ l) (hs : SameCtl m m') (hk : ∀ k, x.mem = some k → (m'.ctl k).isSome) : ViewOk us m' x := by
  intro h0
  obtain ⟨k, c, p, s, h1, h2, h3, h4, h5⟩ := h h0
  obtain ⟨c', hc'⟩ := Option.isSome_iff_exists.1 (hk k h1)
  obtain ⟨c2, e1, e2⟩ := hs k c' (join_some h2).1 hc'
  rw [h2] at e1
  cases e1
  refine ⟨k, c', p, s, h1, hc', by rw [← e2]; exact h3, ?_, h5⟩
  cases p with
  | user u => exact h4
  | heap a =>
    obtain ⟨l, hl⟩ := hl
    have h4' : m.sizes[a]? = some s := h4
    show m'.sizes[a]? = some s
    rw [hl, List.getElem?_append_left]
    · exact h4'
    · by_contra hc
      rw [List.getElem?_eq_none (by omega)] at h4'
      cases h4'

theorem view_push {x : MView} {w : Nat} : (pushView x m).view w = if w = m.views.length then some x else m.view w := join_push

theorem step_viewOk {o : Op} (h : Inv m [] []) (hs : step m o = some m') (ho : o.Safe us) (hv : ∀ v x, m.view v = some x → ViewOk us m x) :
    ∀ v x, m'.view v = some x → ViewOk us m' x := by
  have h' := step_inv h hs
  obtain ⟨hc, hl⟩ := step_same hs
  have mono : ∀ {x w}, m'.view w = some x → ViewOk us m x → ViewOk us m' x := fun hw h1 => h1.mono hl hc fun k hk => h'.ref hw hk
  have nil : ∀ (n : Int) k, n ≤ 0 → ViewOk us m' ⟨k, 0, n⟩ := fun n k hn h0 => absurd h0 (by dsimp only; omega)
  intro v x hx
  by_cases hold : v < m.views.length ∧ v ∉ o.writes
  · rw [step_view hs hold.2 hold.1] at hx
    exact mono (by rw [step_view hs hold.2 hold.1]; exact hx) (hv v x hx)
  -- `v` is new or written
  have push : ∀ {y : MView} {m1 : Mem}, m' = pushView y m1 → m1.views.length = m.views.length → o.writes = [] → x = y := by
    intro y m1 e e1 e2
    rw [e, view_push] at hx
    rw [e2] at hold
    split at hx
    · cases hx; rfl
    · rename_i h3
      have := (join_some hx).1
      exact absurd ⟨by omega, by simp⟩ hold
  have old : o.writes = [] → m'.views.length = m.views.length → False := by
    intro e1 e2
    rw [e1] at hold
    have := (join_some hx).1
    exact hold ⟨by omega, by simp⟩
  cases o with
  | chunkNew n =>
    obtain ⟨p, hp, rfl⟩ := Option.map_eq_some_iff.1 hs
    obtain ⟨-, h1, -⟩ := new_fields hp
    exact (old rfl (by dsimp only; rw [h1])).elim
  | chunkExt u n => cases hs; exact (old rfl rfl).elim
  | chunkMove i =>
    obtain ⟨c, hc, rfl⟩ := Option.map_eq_some_iff.1 hs
    exact (old rfl rfl).elim
  | chunkAssign i j =>
    obtain ⟨a, ha, hs⟩ := Option.bind_eq_some_iff.1 hs
    obtain ⟨b, hb, rfl⟩ := Option.map_eq_some_iff.1 hs
    exact (old rfl (by dsimp only; rw [(dealloc_fields a m).2.1])).elim
  | chunkDrop i =>
    obtain ⟨a, ha, rfl⟩ := Option.map_eq_some_iff.1 hs
    exact (old rfl (by dsimp only; rw [(dealloc_fields a m).2.1])).elim
  | viewEmpty => cases hs; rw [push rfl rfl rfl]; exact nil 0 _ (Int.le_refl 0)
  | viewNew n =>
    simp only [step] at hs
    split at hs
    · cases hs
    · split at hs
      · rename_i hn
        obtain ⟨p, hp, hs⟩ := Option.map_eq_some_iff.1 hs
        subst hs
        obtain ⟨h1, h2, -, h3⟩ := new_fields hp
        rw [push rfl (by show p.2.views.length = _; rw [h2]) rfl]
        unfold Chunk.new at hp
        rw [if_neg (by omega), if_neg (by omega)] at hp
        cases hp
        intro _
        refine ⟨m.ctls.length, _, .heap m.sizes.length, n, rfl, share_ctl_new, rfl, ?_, Int.le_refl 0, ?_⟩
        · show (m.sizes ++ [n])[m.sizes.length]? = _
          simp
        · show 0 + n ≤ n
          omega
      · cases hs; rw [push rfl rfl rfl]; exact nil _ _ (by omega)
  | viewExt u n =>
    simp only [step] at hs
    split at hs
    · cases hs
    · split at hs
      · cases hs
        rw [push rfl rfl rfl]
        intro h0
        obtain ⟨y, rfl, hy⟩ := ho h0
        refine ⟨m.ctls.length, _, .user y, us y, rfl, share_ctl_new, ?_, rfl, Int.le_refl 0, ?_⟩
        · show (if 0 < n then some (Ptr.user y) else none) = _
          rw [if_pos h0]
        · show 0 + n ≤ us y
          omega
      · rename_i hu
        cases hs
        rw [push rfl rfl rfl]
        intro h0
        obtain ⟨y, rfl, hy⟩ := ho h0
        exact absurd rfl hu
  | viewCopy w =>
    obtain ⟨a, ha, hs⟩ := Option.map_eq_some_iff.1 hs
    subst hs
    have e := push rfl (by rw [(retain_fields _ _).1]) rfl
    rw [e] at hx ⊢
    exact mono hx (hv w a ha)
  | viewMove w =>
    obtain ⟨a, ha, hs⟩ := Option.map_eq_some_iff.1 hs
    subst hs
    have hx' := hx
    rw [view_push] at hx'
    split at hx'
    · cases hx'; exact mono hx (hv w _ ha)
    · have hx2 : ((m.views.set w (some .moved))[v]?).join = some x := hx'
      rw [join_set (join_some ha).1] at hx2
      split at hx2
      · cases hx2; exact nil 0 _ (Int.le_refl 0)
      · exact mono hx (hv v x hx2)
  | viewSub w off n =>
    have ho' : 0 ≤ off := ho
    obtain ⟨a, ha, hs⟩ := Option.bind_eq_some_iff.1 hs
    split at hs
    · rename_i hle
      split at hs
      · cases hs
        have e := push rfl (by rw [(retain_fields _ _).1]) rfl
        rw [e] at hx ⊢
        refine mono hx ?_
        intro h0
        dsimp only at h0 ⊢
        obtain ⟨k, c, p, s, h1, h2, h3, h4, h5, h6⟩ := hv w a ha (by omega)
        exact ⟨k, c, p, s, h1, h2, h3, h4, by omega, by omega⟩
      · cases hs; rw [push rfl rfl rfl]; exact nil _ _ (by omega)
    · cases hs
  | viewAssign y w =>
    obtain ⟨a, ha, hs⟩ := Option.bind_eq_some_iff.1 hs
    obtain ⟨b, hb, hs⟩ := Option.map_eq_some_iff.1 hs
    subst hs
    have hx2 := hx
    unfold Mem.view at hx2
    dsimp only at hx2
    rw [(release_fields _ _).1, (retain_fields _ _).1, join_set (join_some ha).1] at hx2
    split at hx2
    · cases hx2; exact mono hx (hv w _ hb)
    · exact mono hx (hv v x hx2)
  | viewMoveAssign y w =>
    obtain ⟨a, ha, hs⟩ := Option.bind_eq_some_iff.1 hs
    obtain ⟨b, hb, hs⟩ := Option.map_eq_some_iff.1 hs
    have hx2 := hx
    rw [← hs] at hx2
    unfold Mem.view at hx2
    dsimp only at hx2
    rw [(release_fields _ _).1, join_set (by rw [List.length_set]; exact (join_some ha).1), join_set (join_some hb).1] at hx2
    split at hx2
    · cases hx2
      by_cases e : y = w
      · rw [if_pos e]; exact nil 0 _ (Int.le_refl 0)
      · rw [if_neg e] at hx ⊢; exact mono hx (hv w _ hb)
    · split at hx2
      · cases hx2
        by_cases e : y = w
        · rw [if_pos e]; exact nil 0 _ (Int.le_refl 0)
        · rw [if_neg e]; exact nil 0 _ (Int.le_refl 0)
      · exact mono hx (hv v x hx2)
  | viewDrop w =>
    obtain ⟨a, ha, hs⟩ := Option.map_eq_some_iff.1 hs
    subst hs
    have hx2 := hx
    unfold Mem.view at hx2
    dsimp only at hx2
    rw [(release_fields _ _).1, join_set (join_some ha).1] at hx2
    split at hx2
    · cases hx2
    · exact mono hx (hv v x hx2)

theorem run_viewOk {os : List Op} : ∀ {m m' : Mem}, Inv m [] [] → run m os = some m' → (∀ o ∈ os, o.Safe us) → (∀ v x, m.view v = some x → ViewOk us m x) →
    ∀ v x, m'.view v = some x → ViewOk us m' x := by
  induction os with
  | nil => intro m m' h hr _ hv; cases hr; exact hv
  | cons o os ih =>
    intro m m' h hr ho hv
    obtain ⟨m1, h1, h2⟩ := Option.bind_eq_some_iff.1 hr
    exact ih (step_inv h h1) h2 (fun o h => ho o (List.mem_cons_of_mem _ h)) (step_viewOk h h1 (ho o List.mem_cons_self) hv)

end DLAF.Own
