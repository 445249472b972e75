import Verif.Spec.Ownership
/- Lemmas for C63: the accounts of owners and of references. -/
namespace DLAF.Own

/-- The slot of a chunk owns the allocation `a`. -/
def ownsC (a : Nat) : Option Chunk → Bool
  | some c => c.allocated && decide (c.ptr = some (.heap a))
  | none => false

/-- The slot of a control block owns the allocation `a`. -/
def ownsK (a : Nat) : Option Ctl → Bool
  | some k => ownsC a (some k.chunk)
  | none => false

/-- The slot of a view has a reference to `k`. -/
def refs (k : Nat) : Option MView → Bool
  | some v => decide (v.mem = some k)
  | none => false

/-- Chunks own exactly what the library allocated. -/
def Chunk.Ok (c : Chunk) : Prop := if c.allocated then ∀ u, c.ptr ≠ some (.user u) else ∀ a, c.ptr ≠ some (.heap a)

def b2n (b : Bool) : Nat := if b then 1 else 0

/-- The accounts, with the handles `hs` to control blocks and the chunks `cs` that are not in an object yet (or any more). -/
structure Inv (m : Mem) (hs : List (Option Nat)) (cs : List Chunk) : Prop where
  acc : ∀ a, m.chunks.countP (ownsC a) + m.ctls.countP (ownsK a) + cs.countP (fun c => ownsC a (some c)) + m.freed.count (.heap a) = b2n (decide (a < m.sizes.length))
  nouser : ∀ u, Ptr.user u ∉ m.freed
  okC : ∀ i c, m.chunk i = some c → c.Ok
  okK : ∀ k c, m.ctl k = some c → c.chunk.Ok
  okH : ∀ c ∈ cs, c.Ok
  cnt : ∀ k, m.views.countP (refs k) + hs.count (some k) = (m.ctl k).elim 0 Ctl.count
  pos : ∀ k c, m.ctl k = some c → 0 < c.count

theorem countP_set' {α : Type*} (p : α → Bool) (l : List α) (i : Nat) (h : i < l.length) (x : α) :
    (l.set i x).countP p + b2n (p l[i]) = l.countP p + b2n (p x) := by
  rw [List.countP_set h]
  have : p l[i] = true → 0 < l.countP p := fun hp => List.countP_pos_iff.2 ⟨_, List.getElem_mem h, hp⟩
  unfold b2n
  split <;> split <;> rename_i h1 h2 <;> first | (have := this h1; omega) | omega

theorem join_some {α : Type*} {l : List (Option α)} {i : Nat} {c : α} (h : (l[i]?).join = some c) : ∃ hi : i < l.length, l[i] = some c := by
  by_cases hi : i < l.length
  · rw [List.getElem?_eq_getElem hi] at h
    exact ⟨hi, h⟩
  · rw [List.getElem?_eq_none (by omega)] at h
    cases h

theorem join_set {α : Type*} {l : List (Option α)} {i j : Nat} {x : Option α} (h : i < l.length) : ((l.set i x)[j]?).join = if i = j then x else (l[j]?).join := by
  by_cases e : i = j
  · subst e; rw [List.getElem?_set_self h, if_pos rfl]; rfl
  · rw [List.getElem?_set_ne e, if_neg e]

theorem join_push {α : Type*} {l : List (Option α)} {j : Nat} {x : Option α} : ((l ++ [x])[j]?).join = if j = l.length then x else (l[j]?).join := by
  rcases Nat.lt_trichotomy j l.length with h | h | h
  · rw [List.getElem?_append_left h, if_neg (by omega)]
  · subst h; rw [List.getElem?_append_right (Nat.le_refl _), if_pos rfl]; simp
  · rw [List.getElem?_eq_none (by simp; omega), if_neg (by omega), List.getElem?_eq_none (by omega)]

theorem countP_push {α : Type*} (p : α → Bool) (l : List α) (x : α) : (l ++ [x]).countP p = l.countP p + b2n (p x) := by
  rw [List.countP_append]; unfold b2n; simp only [List.countP_cons, List.countP_nil]; split <;> simp_all

variable {m : Mem} {hs : List (Option Nat)} {cs : List Chunk} {c a : Chunk}

theorem countP_cons' {α : Type*} (p : α → Bool) (l : List α) (x : α) : (x :: l).countP p = l.countP p + b2n (p x) := by
  rw [List.countP_cons]; rfl

theorem count_cons' (k : Nat) (l : List (Option Nat)) (x : Option Nat) : (x :: l).count (some k) = l.count (some k) + b2n (decide (x = some k)) := by
  rw [List.count_cons]; unfold b2n; simp only [beq_iff_eq, decide_eq_true_eq]

theorem Inv.dealloc (h : Inv m hs (c :: cs)) : Inv (c.deallocate m) hs cs := by
  have hc := h.okH c (List.mem_cons_self)
  have key : ∀ f : List Ptr, (∀ x, f.count (.heap x) = m.freed.count (.heap x) + b2n (ownsC x (some c))) → (∀ u, Ptr.user u ∉ f) → Inv { m with freed := f } hs cs := by
    intro f hf hu
    refine ⟨fun x => ?_, hu, h.okC, h.okK, fun y hy => h.okH y (List.mem_cons_of_mem _ hy), h.cnt, h.pos⟩
    have := h.acc x
    rw [countP_cons'] at this
    have := hf x
    dsimp only at *
    omega
  unfold Chunk.deallocate
  by_cases ha : c.allocated = true
  · rw [if_pos ha]
    unfold Chunk.Ok at hc
    rw [if_pos ha] at hc
    cases hp : c.ptr with
    | none =>
      have := key m.freed (fun x => by simp [ownsC, hp, b2n]) h.nouser
      exact this
    | some p =>
      refine key (p :: m.freed) (fun x => ?_) ?_
      · rw [List.count_cons]
        unfold b2n ownsC
        simp only [ha, hp, Bool.true_and, decide_eq_true_eq, beq_iff_eq, Option.some.injEq]
      · intro u hu
        rcases List.mem_cons.1 hu with e | e
        · exact hc u (by rw [hp, e])
        · exact h.nouser u e
  · rw [if_neg ha]
    exact key m.freed (fun x => by simp [ownsC, ha, b2n]) h.nouser

theorem Inv.moved (h : Inv m hs cs) : Inv m hs (.moved :: cs) :=
  ⟨fun x => by rw [countP_cons']; exact h.acc x, h.nouser, h.okC, h.okK,
    fun y hy => by
      rcases List.mem_cons.1 hy with rfl | e
      · intro a ha; cases ha
      · exact h.okH y e, h.cnt, h.pos⟩

/-- The chunk in slot `i` goes to the handles, the one in the handles to the slot. -/
theorem Inv.swapChunk {i : Nat} (hi : m.chunk i = some a) (h : Inv m hs (c :: cs)) : Inv { m with chunks := m.chunks.set i (some c) } hs (a :: cs) := by
  obtain ⟨hl, he⟩ := join_some hi
  refine ⟨fun x => ?_, h.nouser, ?_, h.okK, ?_, h.cnt, h.pos⟩
  · have h1 := h.acc x
    have h2 := countP_set' (ownsC x) m.chunks i hl (some c)
    rw [he] at h2
    rw [countP_cons'] at h1 ⊢
    dsimp only at *
    omega
  · intro j d hd
    have hd' : ((m.chunks.set i (some c))[j]?).join = some d := hd
    rw [join_set hl] at hd'
    split at hd'
    · cases hd'; exact h.okH _ List.mem_cons_self
    · exact h.okC j d hd'
  · intro y hy
    rcases List.mem_cons.1 hy with rfl | e
    · exact h.okC i _ hi
    · exact h.okH y (List.mem_cons_of_mem _ e)

theorem Inv.dropChunk {i : Nat} (hi : m.chunk i = some a) (h : Inv m hs cs) : Inv { m with chunks := m.chunks.set i none } hs (a :: cs) := by
  obtain ⟨hl, he⟩ := join_some hi
  refine ⟨fun x => ?_, h.nouser, ?_, h.okK, ?_, h.cnt, h.pos⟩
  · have h1 := h.acc x
    have h2 := countP_set' (ownsC x) m.chunks i hl none
    rw [he, show b2n (ownsC x none) = 0 from rfl] at h2
    rw [countP_cons']
    dsimp only at *
    omega
  · intro j d hd
    have hd' : ((m.chunks.set i none)[j]?).join = some d := hd
    rw [join_set hl] at hd'
    split at hd'
    · cases hd'
    · exact h.okC j d hd'
  · intro y hy
    rcases List.mem_cons.1 hy with rfl | e
    · exact h.okC i _ hi
    · exact h.okH y e

theorem Inv.pushChunk (h : Inv m hs (c :: cs)) : Inv { m with chunks := m.chunks ++ [some c] } hs cs := by
  refine ⟨fun x => ?_, h.nouser, ?_, h.okK, fun y hy => h.okH y (List.mem_cons_of_mem _ hy), h.cnt, h.pos⟩
  · have h1 := h.acc x
    rw [countP_cons'] at h1
    dsimp only at *
    rw [countP_push]
    omega
  · intro j d hd
    have hd' : ((m.chunks ++ [some c])[j]?).join = some d := hd
    rw [join_push] at hd'
    split at hd'
    · cases hd'; exact h.okH _ List.mem_cons_self
    · exact h.okC j d hd'

theorem Inv.new (h : Inv m hs cs) {n : Int} {p : Chunk × Mem} (hn : Chunk.new n m = some p) : Inv p.2 hs (p.1 :: cs) := by
  unfold Chunk.new at hn
  split at hn
  · cases hn
  · split at hn
    · cases hn
      refine ⟨fun x => by rw [countP_cons']; exact h.acc x, h.nouser, h.okC, h.okK, ?_, h.cnt, h.pos⟩
      intro y hy
      rcases List.mem_cons.1 hy with rfl | e
      · intro u hu; cases hu
      · exact h.okH y e
    · cases hn
      refine ⟨fun x => ?_, h.nouser, h.okC, h.okK, ?_, h.cnt, h.pos⟩
      · rw [countP_cons']
        have h1 := h.acc x
        dsimp only
        have h2 : b2n (ownsC x (some ⟨n, some (.heap m.sizes.length), true⟩)) = b2n (decide (m.sizes.length = x)) := by
          simp [ownsC]
        rw [h2]
        simp only [List.length_append, List.length_singleton]
        unfold b2n at *
        simp only [decide_eq_true_eq] at *
        split at h1 <;> split <;> split <;> omega
      · intro y hy
        rcases List.mem_cons.1 hy with rfl | e
        · intro u hu; cases hu
        · exact h.okH y e

theorem Inv.ext (h : Inv m hs cs) (u : Option Nat) (n : Int) : Inv m hs (Chunk.ext u n :: cs) := by
  refine ⟨fun x => by rw [countP_cons']; exact h.acc x, h.nouser, h.okC, h.okK, ?_, h.cnt, h.pos⟩
  intro y hy
  rcases List.mem_cons.1 hy with rfl | e
  · intro a ha
    unfold Chunk.ext at ha
    dsimp only at ha
    split at ha
    · cases u <;> cases ha
    · cases ha
  · exact h.okH y e

theorem Inv.share (h : Inv m hs (c :: cs)) : Inv (share c m).2 (some (share c m).1 :: hs) cs := by
  unfold Own.share
  dsimp only
  have hnone : ∀ k, k = m.ctls.length → m.ctl k = none := fun k hk => by
    unfold Mem.ctl; rw [List.getElem?_eq_none (by omega)]; rfl
  have hget : ∀ k, (({ m with ctls := m.ctls ++ [some ⟨c, 1⟩] } : Mem)).ctl k = if k = m.ctls.length then some ⟨c, 1⟩ else m.ctl k := fun k => join_push
  refine ⟨fun x => ?_, h.nouser, h.okC, ?_, fun y hy => h.okH y (List.mem_cons_of_mem _ hy), ?_, ?_⟩
  · have h1 := h.acc x
    rw [countP_cons'] at h1
    dsimp only at *
    rw [countP_push]
    have : b2n (ownsK x (some ⟨c, 1⟩)) = b2n (ownsC x (some c)) := rfl
    omega
  · intro k d hd
    rw [hget] at hd
    split at hd
    · cases hd; exact h.okH _ List.mem_cons_self
    · exact h.okK k d hd
  · intro k
    rw [hget, count_cons']
    have h1 := h.cnt k
    dsimp only
    by_cases hk : k = m.ctls.length
    · rw [hnone k hk] at h1
      rw [if_pos hk]
      simp only [Option.elim] at *
      rw [show decide (some m.ctls.length = some k) = true by simp [hk]]
      unfold b2n
      simp only [if_true]
      omega
    · rw [if_neg hk, ← h1]
      rw [show decide (some m.ctls.length = some k) = false by simp; omega]
      rfl
  · intro k d hd
    rw [hget] at hd
    split at hd
    · cases hd; exact Nat.one_pos
    · exact h.pos k d hd

/-- A handle goes into a new view. -/
theorem Inv.pushView {v : MView} (h : Inv m (v.mem :: hs) cs) : Inv (pushView v m) hs cs := by
  refine ⟨h.acc, h.nouser, h.okC, h.okK, h.okH, fun k => ?_, h.pos⟩
  have h1 := h.cnt k
  rw [count_cons'] at h1
  show (m.views ++ [some v]).countP (refs k) + _ = _
  rw [countP_push]
  have : b2n (refs k (some v)) = b2n (decide (v.mem = some k)) := rfl
  rw [show (Own.pushView v m).ctl k = m.ctl k from rfl]
  omega

/-- The handle of a view and one in the handles are exchanged. -/
theorem Inv.swapView {i : Nat} {x y : MView} (hi : m.view i = some x) (h : Inv m (y.mem :: hs) cs) : Inv { m with views := m.views.set i (some y) } (x.mem :: hs) cs := by
  obtain ⟨hl, he⟩ := join_some hi
  refine ⟨h.acc, h.nouser, h.okC, h.okK, h.okH, fun k => ?_, h.pos⟩
  have h1 := h.cnt k
  have h2 := countP_set' (refs k) m.views i hl (some y)
  rw [he] at h2
  rw [count_cons'] at h1 ⊢
  have e1 : b2n (refs k (some x)) = b2n (decide (x.mem = some k)) := rfl
  have e2 : b2n (refs k (some y)) = b2n (decide (y.mem = some k)) := rfl
  show (m.views.set i (some y)).countP (refs k) + _ = (m.ctl k).elim 0 Ctl.count
  omega

theorem Inv.dropView {i : Nat} {x : MView} (hi : m.view i = some x) (h : Inv m hs cs) : Inv { m with views := m.views.set i none } (x.mem :: hs) cs := by
  obtain ⟨hl, he⟩ := join_some hi
  refine ⟨h.acc, h.nouser, h.okC, h.okK, h.okH, fun k => ?_, h.pos⟩
  have h1 := h.cnt k
  have h2 := countP_set' (refs k) m.views i hl none
  rw [he] at h2
  rw [count_cons']
  have e1 : b2n (refs k (some x)) = b2n (decide (x.mem = some k)) := rfl
  have e2 : b2n (refs k none) = 0 := rfl
  show (m.views.set i none).countP (refs k) + _ = (m.ctl k).elim 0 Ctl.count
  omega

theorem Inv.null (h : Inv m hs cs) : Inv m (none :: hs) cs :=
  ⟨h.acc, h.nouser, h.okC, h.okK, h.okH, fun k => by rw [count_cons']; exact h.cnt k, h.pos⟩

theorem Inv.unnull (h : Inv m (none :: hs) cs) : Inv m hs cs :=
  ⟨h.acc, h.nouser, h.okC, h.okK, h.okH, fun k => by have := h.cnt k; rw [count_cons'] at this; exact this, h.pos⟩

/-- What a control block with count `n'` instead of `n` changes. -/
theorem Inv.setCount {k : Nat} {x : Ctl} {n : Nat} {hs' : List (Option Nat)} (hk : m.ctl k = some x) (h : Inv m hs cs) (hn : 0 < n)
    (hh : ∀ j, hs'.count (some j) + (if j = k then x.count else 0) = hs.count (some j) + if j = k then n else 0) :
    Inv { m with ctls := m.ctls.set k (some ⟨x.chunk, n⟩) } hs' cs := by
  obtain ⟨hl, he⟩ := join_some hk
  have hget : ∀ j, (({ m with ctls := m.ctls.set k (some ⟨x.chunk, n⟩) } : Mem)).ctl j = if k = j then some ⟨x.chunk, n⟩ else m.ctl j := fun j => join_set hl
  refine ⟨fun y => ?_, h.nouser, h.okC, ?_, h.okH, fun j => ?_, ?_⟩
  · have h1 := h.acc y
    have h2 := countP_set' (ownsK y) m.ctls k hl (some ⟨x.chunk, n⟩)
    rw [he] at h2
    have e : b2n (ownsK y (some ⟨x.chunk, n⟩)) = b2n (ownsK y (some x)) := rfl
    dsimp only at *
    omega
  · intro j d hd
    rw [hget] at hd
    split at hd
    · cases hd; exact h.okK k x hk
    · exact h.okK j d hd
  · have h1 := h.cnt j
    have h2 := hh j
    rw [hget]
    dsimp only
    by_cases e : k = j
    · subst e
      rw [hk] at h1
      rw [if_pos rfl] at h2 ⊢
      rw [if_pos rfl] at h2
      simp only [Option.elim] at *
      omega
    · rw [if_neg e, ← h1]
      rw [if_neg (fun h => e h.symm), if_neg (fun h => e h.symm)] at h2
      omega
  · intro j d hd
    rw [hget] at hd
    split at hd
    · cases hd; exact hn
    · exact h.pos j d hd

theorem Inv.retain {k : Option Nat} (h : Inv m hs cs) (hk : ∀ j, k = some j → (m.ctl j).isSome) : Inv (retain k m) (k :: hs) cs := by
  unfold Own.retain
  cases k with
  | none => exact h.null
  | some j =>
    obtain ⟨x, hx⟩ := Option.isSome_iff_exists.1 (hk j rfl)
    dsimp only
    rw [hx]
    dsimp only
    refine h.setCount hx (by omega) fun i => ?_
    rw [count_cons']
    unfold b2n
    simp only [decide_eq_true_eq, Option.some.injEq]
    by_cases e : i = j
    · subst e; simp only [if_true]; omega
    · rw [if_neg (fun h => e h.symm), if_neg e, if_neg e]

theorem Inv.release {k : Option Nat} (h : Inv m (k :: hs) cs) : Inv (release k m) hs cs := by
  unfold Own.release
  cases k with
  | none => exact h.unnull
  | some j =>
    dsimp only
    have h1 := h.cnt j
    rw [count_cons'] at h1
    rw [show b2n (decide (some j = some j)) = 1 by simp [b2n]] at h1
    cases hx : m.ctl j with
    | none => rw [hx] at h1; simp only [Option.elim] at h1; omega
    | some x =>
      rw [hx] at h1
      simp only [Option.elim] at h1
      dsimp only
      split
      · rename_i h2
        obtain ⟨hl, he⟩ := join_some hx
        have hget : ∀ i, (({ m with ctls := m.ctls.set j none } : Mem)).ctl i = if j = i then none else m.ctl i := fun i => join_set hl
        refine Inv.dealloc ⟨fun y => ?_, h.nouser, h.okC, ?_, ?_, fun i => ?_, ?_⟩
        · have h3 := h.acc y
          have h4 := countP_set' (ownsK y) m.ctls j hl none
          rw [he] at h4
          rw [countP_cons']
          have e : b2n (ownsK y (some x)) = b2n (ownsC y (some x.chunk)) := rfl
          have e' : b2n (ownsK y none) = 0 := rfl
          dsimp only at *
          omega
        · intro i d hd
          rw [hget] at hd
          split at hd
          · cases hd
          · exact h.okK i d hd
        · intro y hy
          rcases List.mem_cons.1 hy with rfl | e
          · exact h.okK j x hx
          · exact h.okH y e
        · rw [hget]
          have h3 := h.cnt i
          rw [count_cons'] at h3
          dsimp only
          by_cases e : j = i
          · subst e
            rw [if_pos rfl]
            simp only [Option.elim]
            omega
          · rw [if_neg e, ← h3]
            rw [show b2n (decide (some j = some i)) = 0 by simp [b2n, e]]
            rfl
        · intro i d hd
          rw [hget] at hd
          split at hd
          · cases hd
          · exact h.pos i d hd
      · rename_i h2
        have h3 := h.pos j x hx
        refine h.setCount hx (by omega) fun i => ?_
        rw [count_cons']
        unfold b2n
        simp only [decide_eq_true_eq, Option.some.injEq]
        by_cases e : i = j
        · subst e; simp only [if_true]; omega
        · rw [if_neg e, if_neg (fun h => e h.symm), if_neg e]

theorem Inv.ref {v : Nat} {x : MView} {k : Nat} (h : Inv m hs cs) (hv : m.view v = some x) (hk : x.mem = some k) : (m.ctl k).isSome := by
  obtain ⟨hl, he⟩ := join_some hv
  have h1 := h.cnt k
  have : 0 < m.views.countP (refs k) := List.countP_pos_iff.2 ⟨_, List.getElem_mem hl, by rw [he]; simp [refs, hk]⟩
  cases hx : m.ctl k with
  | none => rw [hx] at h1; simp only [Option.elim] at h1; omega
  | some y => rfl

theorem dealloc_chunks (c : Chunk) (m : Mem) (l : List (Option Chunk)) :
    ({ (c.deallocate m) with chunks := l } : Mem) = c.deallocate { m with chunks := l } := by
  unfold Chunk.deallocate
  split
  · split <;> rfl
  · rfl

theorem dealloc_fields (c : Chunk) (m : Mem) : (c.deallocate m).chunks = m.chunks ∧ (c.deallocate m).views = m.views ∧ (c.deallocate m).ctls = m.ctls ∧
    (c.deallocate m).sizes = m.sizes := by
  unfold Chunk.deallocate
  split
  · split <;> exact ⟨rfl, rfl, rfl, rfl⟩
  · exact ⟨rfl, rfl, rfl, rfl⟩

theorem dealloc_views (c : Chunk) (m : Mem) (l : List (Option MView)) :
    ({ (c.deallocate m) with views := l } : Mem) = c.deallocate { m with views := l } := by
  unfold Chunk.deallocate
  split
  · split <;> rfl
  · rfl

theorem release_views (k : Option Nat) (m : Mem) (l : List (Option MView)) :
    ({ (release k m) with views := l } : Mem) = release k { m with views := l } := by
  unfold release
  cases k with
  | none => rfl
  | some k =>
    dsimp only
    have : ({ m with views := l } : Mem).ctl k = m.ctl k := rfl
    rw [this]
    cases m.ctl k with
    | none => rfl
    | some c =>
      dsimp only
      split
      · rw [dealloc_views]
      · rfl

theorem release_fields (k : Option Nat) (m : Mem) : (release k m).views = m.views ∧ (release k m).chunks = m.chunks ∧ (release k m).sizes = m.sizes := by
  unfold release
  split
  · exact ⟨rfl, rfl, rfl⟩
  · split
    · exact ⟨rfl, rfl, rfl⟩
    · split
      · obtain ⟨h1, h2, h3, h4⟩ := dealloc_fields (‹Ctl›).chunk ({ m with ctls := m.ctls.set (‹Nat›) none })
        exact ⟨h2, h1, h4⟩
      · exact ⟨rfl, rfl, rfl⟩

theorem retain_fields (k : Option Nat) (m : Mem) : (retain k m).views = m.views ∧ (retain k m).chunks = m.chunks ∧ (retain k m).sizes = m.sizes := by
  unfold retain
  split
  · exact ⟨rfl, rfl, rfl⟩
  · split <;> exact ⟨rfl, rfl, rfl⟩

theorem step_inv {o : Op} {m' : Mem} (h : Inv m [] []) (hs : step m o = some m') : Inv m' [] [] := by
  cases o with
  | chunkNew n =>
    obtain ⟨p, hp, rfl⟩ := Option.map_eq_some_iff.1 hs
    exact (h.new hp).pushChunk
  | chunkExt u n => cases hs; exact (h.ext u n).pushChunk
  | chunkMove i =>
    obtain ⟨c, hc, rfl⟩ := Option.map_eq_some_iff.1 hs
    exact (h.moved.swapChunk hc).pushChunk
  | chunkAssign i j =>
    obtain ⟨a, ha, hs⟩ := Option.bind_eq_some_iff.1 hs
    obtain ⟨b, hb, rfl⟩ := Option.map_eq_some_iff.1 hs
    dsimp only
    rw [dealloc_chunks, (dealloc_fields a m).1]
    by_cases e : i = j
    · subst e
      rw [List.set_set]
      exact (h.moved.swapChunk ha).dealloc
    · obtain ⟨hi, -⟩ := join_some ha
      obtain ⟨hj, -⟩ := join_some hb
      have h1 := h.moved.swapChunk hb
      have ha' : ({ m with chunks := m.chunks.set j (some .moved) } : Mem).chunk i = some a := by
        show ((m.chunks.set j (some .moved))[i]?).join = _
        rw [join_set hj, if_neg (fun h => e h.symm)]; exact ha
      have h2 := h1.swapChunk ha'
      dsimp only at h2
      rw [List.set_comm _ _ (fun h => e h.symm)] at h2
      exact h2.dealloc
  | chunkDrop i =>
    obtain ⟨a, ha, rfl⟩ := Option.map_eq_some_iff.1 hs
    dsimp only
    rw [dealloc_chunks, (dealloc_fields a m).1]
    exact (h.dropChunk ha).dealloc
  | viewEmpty => cases hs; exact Inv.pushView (v := .moved) h.null
  | viewNew n =>
    simp only [step] at hs
    split at hs
    · cases hs
    · split at hs
      · obtain ⟨p, hp, rfl⟩ := Option.map_eq_some_iff.1 hs
        exact Inv.pushView (v := ⟨some _, 0, n⟩) (h.new hp).share
      · cases hs; exact Inv.pushView (v := ⟨none, 0, n⟩) h.null
  | viewExt u n =>
    simp only [step] at hs
    split at hs
    · cases hs
    · split at hs
      · cases hs; exact Inv.pushView (v := ⟨some _, 0, n⟩) (h.ext u n).share
      · cases hs; exact Inv.pushView (v := ⟨none, 0, n⟩) h.null
  | viewCopy v =>
    obtain ⟨a, ha, rfl⟩ := Option.map_eq_some_iff.1 hs
    exact (h.retain fun j hj => h.ref ha hj).pushView
  | viewMove v =>
    obtain ⟨a, ha, rfl⟩ := Option.map_eq_some_iff.1 hs
    exact (Inv.swapView (y := .moved) ha h.null).pushView
  | viewSub v off n =>
    obtain ⟨a, ha, hs⟩ := Option.bind_eq_some_iff.1 hs
    split at hs
    · split at hs
      · cases hs; exact Inv.pushView (v := ⟨a.mem, _, n⟩) (h.retain fun j hj => h.ref ha hj)
      · cases hs; exact Inv.pushView (v := ⟨none, 0, n⟩) h.null
    · cases hs
  | viewAssign v w =>
    obtain ⟨a, ha, hs⟩ := Option.bind_eq_some_iff.1 hs
    obtain ⟨b, hb, rfl⟩ := Option.map_eq_some_iff.1 hs
    dsimp only
    rw [release_views, (release_fields _ _).1]
    have h1 := h.retain (k := b.mem) fun j hj => h.ref hb hj
    refine Inv.release (Inv.swapView (y := b) ?_ h1)
    unfold Mem.view
    rw [(retain_fields _ _).1]
    exact ha
  | viewMoveAssign v w =>
    obtain ⟨a, ha, hs⟩ := Option.bind_eq_some_iff.1 hs
    obtain ⟨b, hb, rfl⟩ := Option.map_eq_some_iff.1 hs
    dsimp only
    rw [release_views, (release_fields _ _).1]
    obtain ⟨hv, -⟩ := join_some ha
    obtain ⟨hw, -⟩ := join_some hb
    by_cases e : v = w
    · subst e
      rw [ha] at hb
      cases hb
      simp only [if_true, List.set_set]
      show Inv _ [] []
      refine ⟨h.acc, h.nouser, h.okC, h.okK, h.okH, fun k => ?_, h.pos⟩
      have h3 := countP_set' (refs k) m.views v hv (some ⟨a.mem, 0, 0⟩)
      rw [(join_some ha).2] at h3
      have : b2n (refs k (some a)) = b2n (refs k (some ⟨a.mem, 0, 0⟩)) := rfl
      have h4 := h.cnt k
      show (m.views.set v (some ⟨a.mem, 0, 0⟩)).countP (refs k) + _ = (m.ctl k).elim 0 Ctl.count
      omega
    · rw [if_neg e, if_neg e, if_neg e]
      have h1 := Inv.swapView (y := .moved) hb h.null
      have ha' : ({ m with views := m.views.set w (some .moved) } : Mem).view v = some a := by
        show ((m.views.set w (some .moved))[v]?).join = _
        rw [join_set hw, if_neg (fun h => e h.symm)]; exact ha
      exact (h1.swapView ha').release
  | viewDrop v =>
    obtain ⟨a, ha, rfl⟩ := Option.map_eq_some_iff.1 hs
    dsimp only
    rw [release_views, (release_fields _ _).1]
    exact (h.dropView ha).release

theorem inv_empty : Inv .empty [] [] :=
  ⟨fun a => rfl, fun u h => (by cases h), fun i c h => (by cases h), fun i c h => (by cases h), fun c h => (by cases h), fun k => rfl, fun i c h => (by cases h)⟩

theorem run_inv {os : List Op} : ∀ {m m' : Mem}, Inv m [] [] → run m os = some m' → Inv m' [] [] := by
  induction os with
  | nil => intro m m' h hr; cases hr; exact h
  | cons o os ih =>
    intro m m' h hr
    obtain ⟨m1, h1, h2⟩ := Option.bind_eq_some_iff.1 hr
    exact ih (step_inv h h1) h2

end DLAF.Own
