import Verif.Model.Reduce
import Verif.Props.Temporary
/- C41: reductions combine every rank's contribution exactly once. -/
namespace DLAF

/-- Sum over the ranks of element k of their tiles (column by column). -/
def totalAt {E : Type} [AddCommMonoid E] (n : Nat) (t : Nat → TileRef) (m : Nat → Addr → E) (k : Nat) : E :=
  ((List.range n).map fun r => ((t r).contents (m r)).getD k 0).sum

/-- The tile holds, element by element, the sum over all ranks. -/
def HoldsTotal {E : Type} [AddCommMonoid E] (n : Nat) (t : Nat → TileRef) (m : Nat → Addr → E)
    (d : TileRef) (m' : Addr → E) : Prop :=
  ∀ k (h : k < d.cells.length), m' d.cells[k] = totalAt n t m k

theorem contents_len {E : Type} (t : TileRef) (m : Addr → E) : (t.contents m).length = t.cells.length := by
  unfold TileRef.contents; rw [List.length_map]

theorem mapOpt_range_some {β : Type} (n : Nat) (f : Nat → Option β) (g : Nat → β)
    (h : ∀ r < n, f r = some (g r)) : mapOpt f (List.range n) = some ((List.range n).map g) :=
  mapOpt_eq_map fun r hr => h r (List.mem_range.1 hr)

/-- MPI's sum of equally long contributions. -/
theorem mpiSum_eq {E : Type} [AddCommMonoid E] (n L : Nat) (hn : 0 < n) (c : Nat → List E)
    (h : ∀ r < n, (c r).length = L) :
    mpiSum ((List.range n).map c) =
      some ((List.range L).map fun k => ((List.range n).map fun r => (c r).getD k 0).sum) := by
  obtain ⟨n, rfl⟩ : ∃ k, n = k + 1 := ⟨n - 1, by omega⟩
  have hall : ∀ d ∈ (List.range (n + 1)).map c, d.length = L := by
    intro d hd
    obtain ⟨r, hr, rfl⟩ := List.mem_map.1 hd
    exact h r (List.mem_range.1 hr)
  have h0 := h 0 (by omega)
  generalize hl : (List.range (n + 1)).map c = l at *
  cases l with
  | nil => simp at hl
  | cons a l =>
    have ha : a.length = L := hall a List.mem_cons_self
    unfold mpiSum
    dsimp only
    rw [if_pos]
    · rw [ha, ← hl]
      simp only [List.map_map, Function.comp_def]
    · rw [List.all_eq_true]
      intro d hd
      simp [hall d hd, ha]

theorem set_self_map {α : Type} (n : Nat) (c : Nat → α) (r : Nat) (v : α) (hv : v = c r) :
    ((List.range n).map c).set r v = (List.range n).map c := by
  subst hv
  apply List.ext_getElem?
  intro k
  rw [List.getElem?_set]
  split
  · rename_i h
    subst h
    split
    · rename_i h
      simp at h
      rw [List.getElem?_map, List.getElem?_range h]
      rfl
    · rename_i h
      simp at h
      symm
      simp [h]
  · rfl

theorem holds_of_only {E : Type} [AddCommMonoid E] {n : Nat} {t : Nat → TileRef} {m : Nat → Addr → E}
    {d : TileRef} {m' : Addr → E} {L : Nat} (hL : d.cells.length = L)
    (h : d.contents m' = (List.range L).map fun k => totalAt n t m k) : HoldsTotal n t m d m' := by
  intro k hk
  have := congrArg (fun l => l[k]?) h
  simp only [TileRef.contents, List.getElem?_map, List.getElem?_eq_getElem hk, Option.map_some,
    List.getElem?_range (show k < L by omega), Option.some.injEq] at this
  exact this

/-- All ranks use tiles of one shape (with at least one row), well-formed and none in the temporary's
object. -/
structure SameTiles' (n : Nat) (t : Nat → TileRef) (rows cols : Int) (tmps : List Nat) : Prop where
  wf : ∀ r < n, (t r).WF
  rows : ∀ r < n, (t r).tile.rows = rows
  cols : ∀ r < n, (t r).tile.cols = cols
  obj : ∀ r < n, (t r).obj ∉ tmps

theorem SameTiles'.len {n : Nat} {t : Nat → TileRef} {rows cols : Int} {tmps : List Nat}
    (h : SameTiles' n t rows cols tmps) {r : Nat} (hr : r < n) :
    (t r).cells.length = cols.toNat * rows.toNat := by
  rw [TileRef.cells_length, h.rows r hr, h.cols r hr]

/-- C41, reduce: afterwards the root's tile holds the sum over all ranks, and nothing else changed on any
rank (apart from temporaries); it never aborts, for contiguous and non-contiguous tiles (different on each
rank), with and without device copies. -/
theorem C41_reduce {E : Type} [AddCommMonoid E] (heavy isFloat sameDevice : Bool) {tmp n root : Nat}
    (hroot : root < n) {t : Nat → TileRef} {rows cols : Int} (hr : 1 ≤ rows)
    (ht : SameTiles' n t rows cols [tmp]) (m : Nat → Addr → E) :
    ∃ m', reduceWorld heavy isFloat sameDevice tmp n root t m = some m' ∧
      HoldsTotal n t m (t root) (m' root) ∧
      (∀ x : Addr, x.1 ≠ tmp → x ∉ (t root).cells → m' root x = m root x) ∧
      ∀ r < n, r ≠ root → NothingChanged [tmp] (m r) (m' r) := by
  have hobj : ∀ r < n, (t r).obj ≠ tmp := fun r hr' h => ht.obj r hr' (by simp [h])
  have hsend : ∀ r < n, ∃ m1, scheduleReduceSend heavy isFloat sameDevice tmp (t r) (m r) =
      some (m1, (t r).contents (m r)) ∧ NothingChanged [tmp] (m r) m1 := fun r hr' =>
    C23_reduce_send heavy isFloat sameDevice (ht.wf r hr') (by rw [ht.rows r hr']; exact hr) (hobj r hr')
      (m r)
  have hch : ∃ S : Nat → Addr → E, ∀ r < n, scheduleReduceSend heavy isFloat sameDevice tmp (t r) (m r) =
      some (S r, (t r).contents (m r)) ∧ NothingChanged [tmp] (m r) (S r) := by
    refine ⟨fun r => if h : r < n then (hsend r h).choose else m r, fun r hr' => ?_⟩
    simp only [dif_pos hr']
    exact (hsend r hr').choose_spec
  obtain ⟨S, hS⟩ := hch
  have hmap := mapOpt_range_some n (fun r => if r = root then some (m r, []) else
      scheduleReduceSend heavy isFloat sameDevice tmp (t r) (m r))
    (fun r => if r = root then (m r, []) else (S r, (t r).contents (m r))) (by
      intro r hr'
      split
      · rfl
      · exact (hS r hr').1)
  unfold reduceWorld
  rw [hmap, Option.bind_some]
  have hL := ht.len hroot
  have hw := ht.wf root hroot
  have hcs : ∀ v : List E, (((List.range n).map fun r =>
      if r = root then (m r, []) else (S r, (t r).contents (m r))).map Prod.snd).set root v =
      (List.range n).map fun r => if r = root then v else (t r).contents (m r) := by
    intro v
    rw [List.map_map]
    apply List.ext_getElem
    · simp
    · intro k h1 h2
      simp only [List.length_set, List.length_map, List.length_range] at h1
      rw [List.getElem_set]
      simp only [List.getElem_map, List.getElem_range, Function.comp]
      by_cases hk : k = root
      · rw [if_pos hk.symm, if_pos hk]
      · rw [if_neg (fun h => hk h.symm), if_neg hk, if_neg hk]
  have hg : ∀ v : List E, (v.length : Int) = (t root).tile.rows * (t root).tile.cols →
      mpiSum ((((List.range n).map fun r =>
        if r = root then (m r, []) else (S r, (t r).contents (m r))).map Prod.snd).set root v) =
      some ((List.range (cols.toNat * rows.toNat)).map fun k =>
        ((List.range n).map fun r => (if r = root then v else (t r).contents (m r)).getD k 0).sum) ∧
      ((List.range (cols.toNat * rows.toNat)).map fun k =>
        ((List.range n).map fun r => (if r = root then v else (t r).contents (m r)).getD k 0).sum).length
        = v.length := by
    intro v hv
    have hv' : v.length = cols.toNat * rows.toNat := by
      have := contents_length (t root) hw (m root)
      rw [← hv, contents_len, hL] at this
      omega
    rw [hcs v]
    refine ⟨mpiSum_eq n _ (by omega) _ ?_, ?_⟩
    · intro r hr'
      split
      · exact hv'
      · rw [contents_len, ht.len hr']
    · simp [hv']
  obtain ⟨m1, h1, h2, h3⟩ := C23_reduce_in_place heavy isFloat sameDevice hw
    (by rw [ht.rows root hroot]; exact hr) (hobj root hroot) hg (m root)
  rw [h1, Option.map_some]
  refine ⟨_, rfl, ?_, ?_, ?_⟩
  · simp only [if_true]
    apply holds_of_only hL
    rw [h2]
    apply List.map_congr_left
    intro k _
    unfold totalAt
    congr 1
    apply List.map_congr_left
    intro r _
    split
    · rename_i h
      rw [h]
    · rfl
  · intro x hx hc
    simp only [if_true]
    exact h3 x (by simpa using hx) hc
  · intro r hr' hne
    simp only [if_neg hne, List.getElem?_map, List.getElem?_range hr', Option.map_some, Option.getD_some]
    exact (hS r hr').2

/-- C41, in-place all-reduce: every rank's tile holds the sum over all ranks, nothing else changed. -/
theorem C41_all_reduce_in_place {E : Type} [AddCommMonoid E] (heavy isFloat sameDevice : Bool) {tmp n : Nat}
    {t : Nat → TileRef} {rows cols : Int} (hr : 1 ≤ rows)
    (ht : SameTiles' n t rows cols [tmp]) (m : Nat → Addr → E) :
    ∃ m', allReduceInPlaceWorld heavy isFloat sameDevice tmp n t m = some m' ∧
      ∀ r < n, HoldsTotal n t m (t r) (m' r) ∧
        ∀ x : Addr, x.1 ≠ tmp → x ∉ (t r).cells → m' r x = m r x := by
  have hobj : ∀ r < n, (t r).obj ≠ tmp := fun r hr' h => ht.obj r hr' (by simp [h])
  have h1 : ∀ r < n, ∃ m1, scheduleReduceInPlace heavy isFloat sameDevice tmp some (t r) (m r) =
      some (m1, (t r).contents (m r)) := fun r hr' => by
    obtain ⟨m1, a, _⟩ := C23_reduce_in_place (new := id) heavy isFloat sameDevice (ht.wf r hr')
      (by rw [ht.rows r hr']; exact hr) (hobj r hr') (g := some) (fun v _ => ⟨rfl, rfl⟩) (m r)
    exact ⟨m1, a⟩
  obtain ⟨S, hS⟩ : ∃ S : Nat → Addr → E, ∀ r < n,
      scheduleReduceInPlace heavy isFloat sameDevice tmp some (t r) (m r) =
      some (S r, (t r).contents (m r)) := by
    refine ⟨fun r => if h : r < n then (h1 r h).choose else m r, fun r hr' => ?_⟩
    simp only [dif_pos hr']
    exact (h1 r hr').choose_spec
  unfold allReduceInPlaceWorld
  rw [mapOpt_range_some n _ (fun r => (S r, (t r).contents (m r))) hS, Option.bind_some]
  have hcs : ((List.range n).map fun r => (S r, (t r).contents (m r))).map Prod.snd =
      (List.range n).map fun r => (t r).contents (m r) := by rw [List.map_map]; rfl
  rw [hcs]
  have h2 : ∀ r < n, ∃ m2, scheduleReduceInPlace heavy isFloat sameDevice tmp
      (fun v => mpiSum (((List.range n).map fun r => (t r).contents (m r)).set r v)) (t r) (m r) =
      some (m2, (t r).contents (m r)) ∧ OnlyTileChanged (t r) [tmp] (m r) m2
        ((List.range (cols.toNat * rows.toNat)).map fun k => totalAt n t m k) := by
    intro r hr'
    have hw := ht.wf r hr'
    have key := C23_reduce_in_place (E := E) heavy isFloat sameDevice hw
      (by rw [ht.rows r hr']; exact hr) (hobj r hr')
      (g := fun v => mpiSum (((List.range n).map fun r => (t r).contents (m r)).set r v))
      (new := fun v => (List.range (cols.toNat * rows.toNat)).map fun k =>
        ((List.range n).map fun s => (if s = r then v else (t s).contents (m s)).getD k 0).sum) (by
        intro v hv
        have hv' : v.length = cols.toNat * rows.toNat := by
          have := contents_length (t r) hw (m r)
          rw [← hv, contents_len, ht.len hr'] at this
          omega
        have hset : ((List.range n).map fun r => (t r).contents (m r)).set r v =
            (List.range n).map fun s => if s = r then v else (t s).contents (m s) := by
          apply List.ext_getElem
          · simp
          · intro k a b
            rw [List.getElem_set]
            simp only [List.getElem_map, List.getElem_range]
            by_cases hk : k = r
            · rw [if_pos hk.symm, if_pos hk]
            · rw [if_neg (fun h => hk h.symm), if_neg hk]
        rw [hset]
        refine ⟨mpiSum_eq n _ (by omega) _ ?_, by simp [hv']⟩
        intro s hs
        split
        · exact hv'
        · rw [contents_len, ht.len hs]) (m r)
    obtain ⟨m2, a1, a2, a3⟩ := key
    refine ⟨m2, a1, ?_, a3⟩
    rw [a2]
    apply List.map_congr_left
    intro k _
    unfold totalAt
    congr 1
    apply List.map_congr_left
    intro s _
    split
    · rename_i h
      rw [h]
    · rfl
  obtain ⟨T, hT⟩ : ∃ T : Nat → Addr → E, ∀ r < n, scheduleReduceInPlace heavy isFloat sameDevice tmp
      (fun v => mpiSum (((List.range n).map fun r => (t r).contents (m r)).set r v)) (t r) (m r) =
      some (T r, (t r).contents (m r)) ∧ OnlyTileChanged (t r) [tmp] (m r) (T r)
        ((List.range (cols.toNat * rows.toNat)).map fun k => totalAt n t m k) := by
    refine ⟨fun r => if h : r < n then (h2 r h).choose else m r, fun r hr' => ?_⟩
    simp only [dif_pos hr']
    exact (h2 r hr').choose_spec
  rw [mapOpt_range_some n _ (fun r => (T r, (t r).contents (m r))) fun r hr' => (hT r hr').1, Option.map_some]
  refine ⟨_, rfl, fun r hr' => ?_⟩
  simp only [List.getElem?_map, List.getElem?_range hr', Option.map_some, Option.getD_some]
  obtain ⟨_, b1, b2⟩ := hT r hr'
  exact ⟨holds_of_only (ht.len hr') b1, fun x hx hc => b2 x (by simpa using hx) hc⟩

/-- C41, all-reduce: every rank's output tile holds the sum of all input tiles; input tiles and the rest
are unchanged. -/
theorem C41_all_reduce {E : Type} [AddCommMonoid E] (heavy isFloat sameDevice : Bool) {tmpI tmpO n : Nat}
    (hIO : tmpI ≠ tmpO) {ti tt : Nat → TileRef} {rows cols : Int} (hr : 1 ≤ rows)
    (hti : SameTiles' n ti rows cols [tmpI, tmpO]) (hto : SameTiles' n tt rows cols [tmpI, tmpO])
    (hdis : ∀ r < n, ∀ x ∈ (ti r).cells, x ∉ (tt r).cells) (m : Nat → Addr → E) :
    ∃ m', allReduceWorld heavy isFloat sameDevice tmpI tmpO n ti tt m = some m' ∧
      ∀ r < n, HoldsTotal n ti m (tt r) (m' r) ∧ (ti r).contents (m' r) = (ti r).contents (m r) ∧
        ∀ x : Addr, x.1 ≠ tmpI → x.1 ≠ tmpO → x ∉ (tt r).cells → m' r x = m r x := by
  have oi : ∀ r < n, (ti r).obj ≠ tmpI ∧ (ti r).obj ≠ tmpO := fun r h => by
    have := hti.obj r h
    simpa [not_or] using this
  have oo : ∀ r < n, (tt r).obj ≠ tmpI ∧ (tt r).obj ≠ tmpO := fun r h => by
    have := hto.obj r h
    simpa [not_or] using this
  have shp : ∀ r < n, (ti r).SameShape (tt r) := fun r h =>
    ⟨(hti.rows r h).trans (hto.rows r h).symm, (hti.cols r h).trans (hto.cols r h).symm⟩
  have h1 : ∀ r < n, ∃ m1, scheduleAllReduce heavy isFloat sameDevice tmpI tmpO some (ti r) (tt r) (m r) =
      some (m1, (ti r).contents (m r)) := fun r h => by
    obtain ⟨m1, a, _⟩ := C23_all_reduce (E := E) (new := id) heavy isFloat sameDevice (hti.wf r h) (hto.wf r h) (shp r h)
      (by rw [hti.rows r h]; exact hr) hIO (oi r h).1 (oi r h).2 (oo r h).1 (oo r h).2 (hdis r h)
      (g := some) (fun v _ => ⟨rfl, rfl⟩) (m r)
    exact ⟨m1, a⟩
  obtain ⟨S, hS⟩ : ∃ S : Nat → Addr → E, ∀ r < n,
      scheduleAllReduce heavy isFloat sameDevice tmpI tmpO some (ti r) (tt r) (m r) =
      some (S r, (ti r).contents (m r)) := by
    refine ⟨fun r => if h : r < n then (h1 r h).choose else m r, fun r hr' => ?_⟩
    simp only [dif_pos hr']
    exact (h1 r hr').choose_spec
  unfold allReduceWorld
  rw [mapOpt_range_some n _ (fun r => (S r, (ti r).contents (m r))) hS, Option.bind_some]
  have hcs : ((List.range n).map fun r => (S r, (ti r).contents (m r))).map Prod.snd =
      (List.range n).map fun r => (ti r).contents (m r) := by rw [List.map_map]; rfl
  rw [hcs]
  have h2 : ∀ r < n, ∃ m2, scheduleAllReduce heavy isFloat sameDevice tmpI tmpO
      (fun v => mpiSum (((List.range n).map fun r => (ti r).contents (m r)).set r v)) (ti r) (tt r) (m r) =
      some (m2, (ti r).contents (m r)) ∧ OnlyTileChanged (tt r) [tmpI, tmpO] (m r) m2
        ((List.range (cols.toNat * rows.toNat)).map fun k => totalAt n ti m k) ∧
      (ti r).contents m2 = (ti r).contents (m r) := by
    intro r h
    have key := C23_all_reduce (E := E) heavy isFloat sameDevice (hti.wf r h) (hto.wf r h) (shp r h)
      (by rw [hti.rows r h]; exact hr) hIO (oi r h).1 (oi r h).2 (oo r h).1 (oo r h).2 (hdis r h)
      (g := fun v => mpiSum (((List.range n).map fun r => (ti r).contents (m r)).set r v))
      (new := fun v => (List.range (cols.toNat * rows.toNat)).map fun k =>
        ((List.range n).map fun s => (if s = r then v else (ti s).contents (m s)).getD k 0).sum) (by
        intro v hv
        have hv' : v.length = cols.toNat * rows.toNat := by
          have := contents_length (ti r) (hti.wf r h) (m r)
          rw [← hv, contents_len, hti.len h] at this
          omega
        have hset : ((List.range n).map fun r => (ti r).contents (m r)).set r v =
            (List.range n).map fun s => if s = r then v else (ti s).contents (m s) := by
          apply List.ext_getElem
          · simp
          · intro k a b
            rw [List.getElem_set]
            simp only [List.getElem_map, List.getElem_range]
            by_cases hk : k = r
            · rw [if_pos hk.symm, if_pos hk]
            · rw [if_neg (fun h => hk h.symm), if_neg hk]
        rw [hset]
        refine ⟨mpiSum_eq n _ (by omega) _ ?_, by simp [hv']⟩
        intro s hs
        split
        · exact hv'
        · rw [contents_len, hti.len hs]) (m r)
    obtain ⟨m2, a1, ⟨a2, a3⟩, a4⟩ := key
    refine ⟨m2, a1, ⟨?_, a3⟩, a4⟩
    rw [a2]
    apply List.map_congr_left
    intro k _
    unfold totalAt
    congr 1
    apply List.map_congr_left
    intro s _
    split
    · rename_i h
      rw [h]
    · rfl
  obtain ⟨T, hT⟩ : ∃ T : Nat → Addr → E, ∀ r < n, scheduleAllReduce heavy isFloat sameDevice tmpI tmpO
      (fun v => mpiSum (((List.range n).map fun r => (ti r).contents (m r)).set r v)) (ti r) (tt r) (m r) =
      some (T r, (ti r).contents (m r)) ∧ OnlyTileChanged (tt r) [tmpI, tmpO] (m r) (T r)
        ((List.range (cols.toNat * rows.toNat)).map fun k => totalAt n ti m k) ∧
      (ti r).contents (T r) = (ti r).contents (m r) := by
    refine ⟨fun r => if h : r < n then (h2 r h).choose else m r, fun r hr' => ?_⟩
    simp only [dif_pos hr']
    exact (h2 r hr').choose_spec
  rw [mapOpt_range_some n _ (fun r => (T r, (ti r).contents (m r))) fun r hr' => (hT r hr').1,
    Option.map_some]
  refine ⟨_, rfl, fun r hr' => ?_⟩
  simp only [List.getElem?_map, List.getElem?_range hr', Option.map_some, Option.getD_some]
  obtain ⟨_, ⟨b1, b2⟩, b3⟩ := hT r hr'
  exact ⟨holds_of_only (hto.len hr') b1, b3, fun x hx hx' hc => b2 x (by simp [hx, hx']) hc⟩

/-! Three ranks, tiles of 2x1 with leading dimensions 2, 3, 4. -/
def exT (r : Nat) : TileRef := ⟨0, ⟨2, 1, ⟨.whole, 0, 10⟩, 2 + r⟩⟩

example : SameTiles' 3 exT 2 1 [9] :=
  ⟨by decide, by decide, by decide, by decide⟩

example : ((reduceWorld true false true 9 3 1 exT (fun r x => (10 : Int) ^ r * (x.2.2 + 1))).map fun m =>
    (exT 1).contents (m 1)) = some [111, 222] := by decide

/-! ### Point-to-point sum -/

theorem addFold {E : Type} [Add E] [Mul E] (alpha : E) (a b : TileRef) (L : List (Int × Int)) (m : Addr → E)
    (hn : (L.map fun ij => b.addr ij.1 ij.2).Nodup)
    (hd : ∀ u ∈ L, ∀ v ∈ L, a.addr u.1 u.2 ≠ b.addr v.1 v.2) :
    (∀ ij ∈ L, L.foldl (fun m ij x =>
        if x = b.addr ij.1 ij.2 then m (b.addr ij.1 ij.2) + alpha * m (a.addr ij.1 ij.2) else m x) m
        (b.addr ij.1 ij.2) = m (b.addr ij.1 ij.2) + alpha * m (a.addr ij.1 ij.2)) ∧
    ∀ x, x ∉ (L.map fun ij => b.addr ij.1 ij.2) → L.foldl (fun m ij x =>
        if x = b.addr ij.1 ij.2 then m (b.addr ij.1 ij.2) + alpha * m (a.addr ij.1 ij.2) else m x) m x =
        m x := by
  induction L generalizing m with
  | nil => simp
  | cons p L ih =>
    simp only [List.map_cons, List.nodup_cons] at hn
    have hd' : ∀ u ∈ L, ∀ v ∈ L, a.addr u.1 u.2 ≠ b.addr v.1 v.2 :=
      fun u hu v hv => hd u (List.mem_cons_of_mem _ hu) v (List.mem_cons_of_mem _ hv)
    obtain ⟨i1, i2⟩ := ih (fun x => if x = b.addr p.1 p.2 then m (b.addr p.1 p.2) + alpha * m (a.addr p.1 p.2)
      else m x) hn.2 hd'
    simp only [List.foldl_cons]
    constructor
    · intro ij hij
      rcases List.mem_cons.1 hij with rfl | hij
      · rw [i2 _ hn.1, if_pos rfl]
      · rw [i1 _ hij]
        have hne : b.addr ij.1 ij.2 ≠ b.addr p.1 p.2 := by
          intro h
          exact hn.1 (h ▸ List.mem_map.2 ⟨ij, hij, rfl⟩)
        rw [if_neg hne, if_neg (hd ij (List.mem_cons_of_mem _ hij) p List.mem_cons_self)]
    · intro x hx
      simp only [List.map_cons, List.mem_cons, not_or] at hx
      rw [i2 x hx.2, if_neg hx.1]

/-- `tile::add`: element k of the destination gets alpha times element k of the source added. -/
theorem tileAdd_eq {E : Type} [Add E] [Mul E] (alpha : E) {a b : TileRef} (wb : b.WF)
    (hs : a.SameShape b) (hdis : ∀ x ∈ a.cells, x ∉ b.cells) (m : Addr → E) :
    ∃ m', tileAdd alpha a b m = some m' ∧
      (∀ i j, (0 ≤ i ∧ i < b.tile.rows) → (0 ≤ j ∧ j < b.tile.cols) →
        m' (b.addr i j) = m (b.addr i j) + alpha * m (a.addr i j)) ∧
      ∀ x, x ∉ b.cells → m' x = m x := by
  unfold tileAdd
  rw [if_pos ⟨hs.1, hs.2⟩]
  refine ⟨_, rfl, ?_⟩
  generalize hL : ((List.range b.tile.cols.toNat).flatMap fun j : Nat =>
    (List.range b.tile.rows.toNat).map fun i : Nat => ((i : Int), (j : Int))) = L
  have hmem : ∀ ij : Int × Int, ij ∈ L ↔ (0 ≤ ij.1 ∧ ij.1 < b.tile.rows) ∧ (0 ≤ ij.2 ∧ ij.2 < b.tile.cols) := by
    intro ij
    rw [← hL]
    simp only [List.mem_flatMap, List.mem_map, List.mem_range]
    constructor
    · rintro ⟨j, hj, i, hi, rfl⟩
      exact ⟨⟨by simp, by simp only; omega⟩, by simp, by simp only; omega⟩
    · rintro ⟨⟨h1, h2⟩, h3, h4⟩
      exact ⟨ij.2.toNat, by omega, ij.1.toNat, by omega, by rw [Int.toNat_of_nonneg h1, Int.toNat_of_nonneg h3]⟩
  have hcells : (L.map fun ij => b.addr ij.1 ij.2) = b.cells := by
    rw [← hL, List.map_flatMap]
    unfold TileRef.cells
    congr 1
    funext j
    rw [List.map_map]
    rfl
  obtain ⟨h1, h2⟩ := addFold alpha a b L m (by rw [hcells]; exact TileRef.cells_nodup wb) (by
    intro u hu v hv he
    obtain ⟨⟨u1, u2⟩, u3, u4⟩ := (hmem u).1 hu
    obtain ⟨⟨v1, v2⟩, v3, v4⟩ := (hmem v).1 hv
    have ha : a.addr u.1 u.2 ∈ a.cells := (a.mem_cells _).2 ⟨u.1, u.2, u1, by rw [hs.1]; exact u2, u3,
      by rw [hs.2]; exact u4, rfl⟩
    have hb : b.addr v.1 v.2 ∈ b.cells := (b.mem_cells _).2 ⟨v.1, v.2, v1, v2, v3, v4, rfl⟩
    exact hdis _ ha (he ▸ hb))
  refine ⟨fun i j hi hj => h1 (i, j) ((hmem (i, j)).2 ⟨hi, hj⟩), fun x hx => h2 x (by rw [hcells]; exact hx)⟩

theorem cell_index {t : TileRef} {i j : Int} (hi : 0 ≤ i ∧ i < t.tile.rows)
    (hj : 0 ≤ j ∧ j < t.tile.cols) :
    ∃ h : i.toNat + t.tile.rows.toNat * j.toNat < t.cells.length,
      t.cells[i.toNat + t.tile.rows.toNat * j.toNat] = t.addr i j := by
  have hlt : i.toNat + t.tile.rows.toNat * j.toNat < t.cells.length := by
    rw [t.cells_length, Nat.mul_comm t.tile.cols.toNat]
    have := Nat.mul_le_mul_left t.tile.rows.toNat (show j.toNat + 1 ≤ t.tile.cols.toNat by omega)
    rw [Nat.mul_add] at this
    omega
  refine ⟨hlt, ?_⟩
  simp only [t.cells_eq, List.getElem_map, List.getElem_range]
  have hr : 0 < t.tile.rows.toNat := by omega
  rw [Nat.add_mul_mod_self_left, Nat.mod_eq_of_lt (by omega), Nat.add_mul_div_left _ _ hr,
    Nat.div_eq_of_lt (by omega), Nat.zero_add, Int.toNat_of_nonneg hi.1, Int.toNat_of_nonneg hj.1]

theorem sumP2P_eq {E : Type} [Semiring E] (heavy isFloat sameDevice : Bool) {tmpS tmpR : Nat}
    {tin tout : TileRef} (wi : tin.WF) (wo : tout.WF) (hs : tin.SameShape tout) (hr : 1 ≤ tin.tile.rows)
    (hi1 : tin.obj ≠ tmpS) (hi2 : tin.obj ≠ tmpR) (ho1 : tout.obj ≠ tmpS) (ho2 : tout.obj ≠ tmpR)
    (hdis : ∀ x ∈ tin.cells, x ∉ tout.cells) (vs : List E)
    (hv : (vs.length : Int) = tin.tile.rows * tin.tile.cols) (m : Addr → E) :
    ∃ m', sumP2P heavy isFloat sameDevice tmpS tmpR tin tout vs m = some (m', tin.contents m) ∧
      (∀ i j, (0 ≤ i ∧ i < tin.tile.rows) → (0 ≤ j ∧ j < tin.tile.cols) →
        ∀ v, vs[i.toNat + tin.tile.rows.toNat * j.toNat]? = some v →
          m' (tout.addr i j) = v + m (tin.addr i j)) ∧
      ∀ x : Addr, x.1 ≠ tmpS → x.1 ≠ tmpR → x ∉ tout.cells → m' x = m x := by
  obtain ⟨m1, a1, a2⟩ := C23_send heavy isFloat sameDevice false wi hr hi1 m
  obtain ⟨m2, b1, b2, b3⟩ := C23_recv heavy isFloat sameDevice false wo (by rw [← hs.1]; exact hr) ho2 vs
    (by rw [hv, hs.1, hs.2]) m1
  obtain ⟨m3, c1, c2, c3⟩ := tileAdd_eq (1 : E) wo hs hdis m2
  refine ⟨m3, ?_, ?_, ?_⟩
  · unfold sumP2P
    rw [a1, Option.bind_some, b1, Option.bind_some, c1]
    rfl
  · intro i j hi hj v hvv
    have hi' : 0 ≤ i ∧ i < tout.tile.rows := by rw [← hs.1]; exact hi
    have hj' : 0 ≤ j ∧ j < tout.tile.cols := by rw [← hs.2]; exact hj
    rw [c2 i j hi' hj', one_mul]
    obtain ⟨hk, he⟩ := cell_index hi' hj'
    have e1 : m2 (tout.addr i j) = v := by
      have := congrArg (fun l => l[i.toNat + tout.tile.rows.toNat * j.toNat]?) b2
      simp only [TileRef.contents, List.getElem?_map, List.getElem?_eq_getElem hk, Option.map_some] at this
      have hvv' : vs[i.toNat + tout.tile.rows.toNat * j.toNat]? = some v := by rw [← hs.1]; exact hvv
      rw [he, hvv', Option.some.injEq] at this
      exact this
    have hin : tin.addr i j ∈ tin.cells :=
      (tin.mem_cells _).2 ⟨i, j, hi.1, hi.2, hj.1, hj.2, rfl⟩
    have e2 : m2 (tin.addr i j) = m (tin.addr i j) := by
      rw [b3 _ (by simpa [TileRef.addr] using hi2) (hdis _ hin)]
      exact a2 _ (by simpa [TileRef.addr] using hi1)
    rw [e1, e2]
  · intro x hx hx' hc
    rw [c3 x hc, b3 x (by simpa using hx') hc]
    exact a2 x (by simpa using hx)

/-- C41, point-to-point all-sum between two ranks A and B: on both ranks the output tile holds the sum of
the two input tiles; input tiles and everything else are unchanged. -/
theorem C41_sum_p2p {E : Type} [CommSemiring E] (heavy isFloat sameDevice : Bool) {tmpS tmpR : Nat}
    {iA oA iB oB : TileRef} {rows cols : Int} (hr : 1 ≤ rows)
    (hw : ∀ t ∈ [iA, oA, iB, oB], t.WF ∧ t.tile.rows = rows ∧ t.tile.cols = cols ∧ t.obj ≠ tmpS ∧
      t.obj ≠ tmpR)
    (hA : ∀ x ∈ iA.cells, x ∉ oA.cells) (hB : ∀ x ∈ iB.cells, x ∉ oB.cells) (mA mB : Addr → E) :
    ∃ mA' mB', sumP2PPair heavy isFloat sameDevice tmpS tmpR iA oA iB oB mA mB = some (mA', mB') ∧
      (∀ i j, (0 ≤ i ∧ i < rows) → (0 ≤ j ∧ j < cols) →
        mA' (oA.addr i j) = mA (iA.addr i j) + mB (iB.addr i j) ∧
        mB' (oB.addr i j) = mA (iA.addr i j) + mB (iB.addr i j)) ∧
      (∀ x : Addr, x.1 ≠ tmpS → x.1 ≠ tmpR → x ∉ oA.cells → mA' x = mA x) ∧
      ∀ x : Addr, x.1 ≠ tmpS → x.1 ≠ tmpR → x ∉ oB.cells → mB' x = mB x := by
  simp only [List.mem_cons, List.not_mem_nil, or_false, forall_eq_or_imp, forall_eq] at hw
  obtain ⟨⟨w1, r1, c1, s1, q1⟩, ⟨w2, r2, c2, s2, q2⟩, ⟨w3, r3, c3, s3, q3⟩, w4, r4, c4, s4, q4⟩ := hw
  obtain ⟨a1, e1, _⟩ := C23_send heavy isFloat sameDevice false w1 (by omega) s1 mA
  obtain ⟨b1, e2, _⟩ := C23_send heavy isFloat sameDevice false w3 (by omega) s3 mB
  obtain ⟨a2, f1, f2, f3⟩ := sumP2P_eq heavy isFloat sameDevice w1 w2 ⟨by omega, by omega⟩ (by omega) s1 q1
    s2 q2 hA (iB.contents mB) (by rw [contents_length iB w3, r3, c3, r1, c1]) mA
  obtain ⟨b2, g1, g2, g3⟩ := sumP2P_eq heavy isFloat sameDevice w3 w4 ⟨by omega, by omega⟩ (by omega) s3 q3
    s4 q4 hB (iA.contents mA) (by rw [contents_length iA w1, r3, c3, r1, c1]) mB
  refine ⟨a2, b2, ?_, ?_, f3, g3⟩
  · unfold sumP2PPair
    rw [e1, Option.bind_some, e2, Option.bind_some]
    simp only [f1, Option.bind_some, g1, Option.map_some]
  · intro i j hi hj
    have get : ∀ (t : TileRef) (m : Addr → E), t.tile.rows = rows → t.tile.cols = cols →
        (t.contents m)[i.toNat + rows.toNat * j.toNat]? = some (m (t.addr i j)) := by
      intro t m h1 h2
      obtain ⟨hk, he⟩ := cell_index (t := t) (i := i) (j := j) (by rw [h1]; exact hi) (by rw [h2]; exact hj)
      rw [h1] at hk
      simp only [h1] at he
      simp only [TileRef.contents, List.getElem?_map, List.getElem?_eq_getElem hk, Option.map_some, he]
    constructor
    · rw [f2 i j (by rw [r1]; exact hi) (by rw [c1]; exact hj) _ (by rw [r1]; exact get iB mB r3 c3), add_comm]
    · exact g2 i j (by rw [r3]; exact hi) (by rw [c3]; exact hj) _ (by rw [r3]; exact get iA mA r1 c1)

example : let iA : TileRef := ⟨0, ⟨2, 2, ⟨.whole, 0, 10⟩, 3⟩⟩
    let oA : TileRef := ⟨1, ⟨2, 2, ⟨.whole, 0, 10⟩, 2⟩⟩
    let iB : TileRef := ⟨0, ⟨2, 2, ⟨.whole, 1, 10⟩, 4⟩⟩
    let oB : TileRef := ⟨1, ⟨2, 2, ⟨.whole, 0, 10⟩, 5⟩⟩
    (∀ t ∈ [iA, oA, iB, oB], t.WF ∧ t.tile.rows = 2 ∧ t.tile.cols = 2 ∧ t.obj ≠ 8 ∧ t.obj ≠ 9) ∧
    ((sumP2PPair true true false 8 9 iA oA iB oB (fun x => x.2.2) (fun x => (100 : Int) * x.2.2)).map
      fun r => (oA.contents r.1, oB.contents r.2)) =
      some ([100, 201, 503, 604], [100, 201, 503, 604]) := by decide

end DLAF
