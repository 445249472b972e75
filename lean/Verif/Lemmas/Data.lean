import Verif.Spec.Data
import Verif.Lemmas.Layout
import Mathlib.Tactic.Ring
import Mathlib.Data.List.Nodup
import Mathlib.Data.List.Perm.Basic
/- Lemmas on descriptors, element copies and messages. -/
namespace DLAF

theorem range_mul_flatMap {α : Type _} (f : Nat → Nat → α) (a b : Nat) :
    ((List.range a).flatMap fun j => (List.range b).map fun i => f j i) =
      (List.range (a * b)).map fun k => f (k / b) (k % b) := by
  induction a with
  | zero => simp
  | succ a ih =>
    rw [List.range_succ, List.flatMap_append, ih, Nat.succ_mul, List.range_add, List.map_append]
    congr 1
    simp only [List.flatMap_cons, List.flatMap_nil, List.append_nil, List.map_map]
    apply List.map_congr_left
    intro i hi
    rw [List.mem_range] at hi
    simp only [Function.comp]
    have hb : 0 < b := by omega
    rw [Nat.mul_comm a b, Nat.mul_add_div hb, Nat.mul_add_mod, Nat.mod_eq_of_lt hi,
      Nat.div_eq_of_lt hi, Nat.add_zero]

theorem strided_length (off nb bs st : Int) : (strided off nb bs st).length = nb.toNat * bs.toNat := by
  unfold strided
  rw [range_mul_flatMap (fun j i => off + (j : Int) * st + (i : Int))]
  simp

theorem strided_getElem (off nb bs st : Int) (k : Nat) (h : k < (strided off nb bs st).length) :
    (strided off nb bs st)[k] = off + ((k / bs.toNat : Nat) : Int) * st + ((k % bs.toNat : Nat) : Int) := by
  unfold strided at h ⊢
  simp only [range_mul_flatMap (fun j i => off + (j : Int) * st + (i : Int))] at h ⊢
  rw [List.getElem_map]
  simp

theorem toNat_mul' {a b : Int} (ha : 0 ≤ a) (hb : 0 ≤ b) : (a * b).toNat = a.toNat * b.toNat :=
  Int.toNat_mul ha hb

theorem strided_contig (off nb bs : Int) (hn : 0 ≤ nb) (hb : 0 ≤ bs) :
    strided off nb bs bs = strided off 1 (nb * bs) 0 := by
  obtain ⟨n, rfl⟩ := Int.eq_ofNat_of_zero_le hn
  obtain ⟨b, rfl⟩ := Int.eq_ofNat_of_zero_le hb
  apply List.ext_getElem
  · rw [strided_length, strided_length]
    rw [toNat_mul' hn hb]; simp
  · intro k h1 h2
    rw [strided_getElem, strided_getElem]
    rw [strided_length] at h2
    rw [toNat_mul' hn hb] at h2 ⊢
    simp only [Int.toNat_natCast, Int.toNat_one, Nat.one_mul] at h2 ⊢
    rw [Nat.mod_eq_of_lt h2]
    have := Nat.div_add_mod k b
    have h3 : (k : Int) = ((k / b * b + k % b : Nat) : Int) := by rw [Nat.mul_comm]; exact_mod_cast this.symm
    push_cast at h3 ⊢
    omega

theorem strided_one (off bs st st' : Int) : strided off 1 bs st = strided off 1 bs st' := by
  unfold strided; simp

theorem strided_zero (off nb st st' : Int) : strided off nb 0 st = strided off nb 0 st' := by
  unfold strided; simp

/-- The descriptor after normalisation still describes the same positions. -/
theorem Desc.make_strided {obj : Nat} {c : ChunkId} {off nb bs st : Int} {d : Desc}
    (h : Desc.make obj c off nb bs st = some d) :
    d.obj = obj ∧ d.chunk = c ∧ d.off = off ∧ 0 ≤ d.nblocks ∧ 0 ≤ d.blocksize ∧
      strided d.off d.nblocks d.blocksize d.stride = strided off nb bs st := by
  unfold Desc.make at h
  split at h
  swap
  · simp at h
  rename_i hc
  obtain ⟨h1, h2, h3⟩ := hc
  generalize hst : (if nb = 1 then 0 else st) = st' at h
  dsimp only at h
  split at h
  · rename_i he
    simp only [Option.some.injEq] at h
    subst h
    refine ⟨rfl, rfl, rfl, by simp, Int.mul_nonneg h1 h2, ?_⟩
    try simp only
    by_cases hn : nb = 1
    · subst hn
      rw [Int.one_mul]
      exact strided_one _ _ _ _
    · rw [if_neg hn] at hst
      rw [hst, ← he]
      exact (strided_contig off nb bs h1 h2).symm
  · simp only [Option.some.injEq] at h
    subst h
    refine ⟨rfl, rfl, rfl, h1, h2, ?_⟩
    by_cases hn : nb = 1
    · subst hn
      exact strided_one _ _ _ _
    · rw [if_neg hn] at hst
      rw [hst]

/-- Positions of a descriptor reported contiguous. -/
theorem Desc.contig_strided {d : Desc} (h : d.is_contiguous = true) (hn : 0 ≤ d.nblocks)
    (hb : 0 ≤ d.blocksize) :
    strided d.off d.nblocks d.blocksize d.stride = strided d.off 1 (if d.nblocks = 1 then d.blocksize else
      d.nblocks * d.blocksize) 0 := by
  unfold Desc.is_contiguous at h
  simp only [Bool.or_eq_true, beq_iff_eq] at h
  split
  · rename_i h1
    rw [h1]; exact strided_one _ _ _ _
  · rename_i h1
    rcases h with h | h
    · exact absurd h h1
    · rw [h, strided_contig _ _ _ hn hb]

theorem Desc.make_contig {obj : Nat} {c : ChunkId} {off nb bs st : Int} {d : Desc}
    (h : Desc.make obj c off nb bs st = some d) (hc : d.is_contiguous = true) : d.nblocks = 1 := by
  unfold Desc.make at h
  split at h
  swap
  · simp at h
  generalize hst : (if nb = 1 then 0 else st) = st' at h
  dsimp only at h
  split at h
  · simp only [Option.some.injEq] at h
    subst h
    rfl
  · rename_i hne
    simp only [Option.some.injEq] at h
    subst h
    simp only [Desc.is_contiguous, Bool.or_eq_true, beq_iff_eq] at hc
    rcases hc with hc | hc
    · exact hc
    · exact absurd hc.symm hne

/-- The cells of a descriptor. -/
def Desc.cells (d : Desc) : List Addr :=
  (strided d.off d.nblocks d.blocksize d.stride).map fun x => (d.obj, d.chunk, x)

theorem Desc.cells_getElem (d : Desc) (k : Nat) (h : k < d.cells.length) :
    d.cells[k] = d.ptr (((k / d.blocksize.toNat : Nat) : Int) * d.stride + ((k % d.blocksize.toNat : Nat) : Int)) := by
  unfold Desc.ptr
  simp only [Desc.cells, List.getElem_map, strided_getElem, Int.add_assoc]

theorem Desc.cells_length (d : Desc) : d.cells.length = d.nblocks.toNat * d.blocksize.toNat := by
  unfold Desc.cells
  rw [List.length_map, strided_length]

theorem stdCopy_flatMap (src dst : Desc) (n : Nat) (f g : Nat → Int) (bs : Int) :
    ((List.range n).flatMap fun b => stdCopy src dst (f b) (g b) bs) =
      (List.range (n * bs.toNat)).map fun k =>
        (src.ptr (f (k / bs.toNat) + ((k % bs.toNat : Nat) : Int)),
         dst.ptr (g (k / bs.toNat) + ((k % bs.toNat : Nat) : Int))) := by
  unfold stdCopy
  exact range_mul_flatMap (fun j i => (src.ptr (f j + (i : Int)), dst.ptr (g j + (i : Int)))) n bs.toNat

theorem Desc.cells_contig_getElem {d : Desc} (h1 : d.nblocks = 1) (k : Nat) (h : k < d.cells.length) :
    d.cells[k] = d.ptr k := by
  rw [Desc.cells_getElem]
  rw [Desc.cells_length, h1] at h
  simp only [Int.toNat_one, Nat.one_mul] at h
  rw [Nat.div_eq_of_lt h, Nat.mod_eq_of_lt h]
  simp

/-- `common::copy` performs exactly the assignments "k-th element to k-th element". -/
theorem dataCopy_eq {heavy : Bool} {src dst : Desc} (hs : 0 ≤ src.nblocks) (hs' : 0 ≤ src.blocksize)
    (hd : 0 ≤ dst.nblocks) (hd' : 0 ≤ dst.blocksize)
    (cs : src.is_contiguous = true → src.nblocks = 1) (cd : dst.is_contiguous = true → dst.nblocks = 1)
    (hl : src.cells.length = dst.cells.length) :
    dataCopy heavy src dst = some (src.cells.zip dst.cells) := by
  have hls := src.cells_length
  have hld := dst.cells_length
  have hcount : src.nblocks * src.blocksize = dst.nblocks * dst.blocksize := by
    rw [hls, hld, ← toNat_mul' hs hs', ← toNat_mul' hd hd'] at hl
    have := Int.mul_nonneg hs hs'
    have := Int.mul_nonneg hd hd'
    omega
  unfold dataCopy
  by_cases c1 : dst.is_contiguous = true <;> by_cases c2 : src.is_contiguous = true
  · have e1 := cd c1
    have e2 := cs c2
    rw [e1, e2, Int.one_mul, Int.one_mul] at hcount
    simp only [c1, c2, hcount, Bool.and_self, if_true, beq_self_eq_true, Bool.not_true, Bool.and_false,
      Bool.false_eq_true, if_false, Option.some.injEq]
    apply List.ext_getElem
    · simp [stdCopy, hls, hld, e1, e2, hcount]
    · intro k h1 h2
      simp only [stdCopy, List.getElem_map, List.getElem_range, List.getElem_zip]
      rw [Desc.cells_contig_getElem e1, Desc.cells_contig_getElem e2]
      simp
  · have e1 := cd c1
    rw [e1, Int.one_mul] at hcount
    have c2' : src.is_contiguous = false := by simpa using c2
    simp only [c1, c2', hcount, Bool.and_false, Bool.false_eq_true, if_true, if_false, beq_self_eq_true,
      Bool.not_true, Option.some.injEq]
    rw [stdCopy_flatMap src dst _ (fun b => (b : Int) * src.stride) (fun b => (b : Int) * src.blocksize)]
    apply List.ext_getElem
    · simp [← hl, hls]
    · intro k h1 h2
      simp only [List.getElem_map, List.getElem_range, List.getElem_zip]
      rw [Desc.cells_contig_getElem e1, Desc.cells_getElem]
      congr 2
      have h := Nat.div_add_mod k src.blocksize.toNat
      have h3 : (k : Int) = ((k / src.blocksize.toNat * src.blocksize.toNat + k % src.blocksize.toNat : Nat) : Int) := by
        rw [Nat.mul_comm]; exact_mod_cast h.symm
      rw [Nat.cast_add, Nat.cast_mul, Int.toNat_of_nonneg hs'] at h3
      rw [h3.symm]
  · have e2 := cs c2
    rw [e2, Int.one_mul] at hcount
    have c1' : dst.is_contiguous = false := by simpa using c1
    simp only [c1', c2, hcount, Bool.false_and, Bool.false_eq_true, if_true, if_false, beq_self_eq_true,
      Bool.not_true, Bool.and_false, Option.some.injEq]
    rw [stdCopy_flatMap src dst _ (fun b => (b : Int) * dst.blocksize) (fun b => (b : Int) * dst.stride)]
    apply List.ext_getElem
    · simp [hl, hld]
    · intro k h1 h2
      simp only [List.getElem_map, List.getElem_range, List.getElem_zip]
      rw [Desc.cells_contig_getElem e2, Desc.cells_getElem]
      congr 2
      have h := Nat.div_add_mod k dst.blocksize.toNat
      have h3 : (k : Int) = ((k / dst.blocksize.toNat * dst.blocksize.toNat + k % dst.blocksize.toNat : Nat) : Int) := by
        rw [Nat.mul_comm]; exact_mod_cast h.symm
      rw [Nat.cast_add, Nat.cast_mul, Int.toNat_of_nonneg hd'] at h3
      rw [h3.symm]
  · have c1' : dst.is_contiguous = false := by simpa using c1
    have c2' : src.is_contiguous = false := by simpa using c2
    simp only [c1', c2', Desc.count, hcount, Bool.false_and, Bool.false_eq_true, if_false, beq_self_eq_true,
      Bool.not_true, Bool.and_false, Option.some.injEq]
    have e : (dst.nblocks * dst.blocksize).toNat = dst.cells.length := by rw [hld, toNat_mul' hd hd']
    apply List.ext_getElem
    · simp [e, hl]
    · intro k h1 h2
      simp only [List.getElem_map, List.getElem_range, List.getElem_zip]
      rw [Desc.cells_getElem, Desc.cells_getElem]
      push_cast
      rw [Int.toNat_of_nonneg hs', Int.toNat_of_nonneg hd']

/-- MPI sees exactly the cells of the descriptor. -/
theorem Message.elements_eq {d : Desc} (hc : d.is_contiguous = true → d.nblocks = 1) :
    (Message.make d).elements = d.cells := by
  unfold Message.make
  by_cases c : d.is_contiguous = true
  · simp only [c, if_true, Message.elements, Desc.cells, Desc.ptr, strided, hc c]
    simp
  · simp only [c, if_false, Message.elements, Desc.cells, Desc.ptr, strided, if_true, List.map_flatMap,
      List.map_map, Bool.false_eq_true]
    congr 1
    funext j
    congr 1
    funext i
    simp [Int.add_assoc]

/-! ### Running assignments -/

theorem runAssigns_cons {E : Type} (a : Assign) (l : List Assign) (m : Addr → E) :
    runAssigns (a :: l) m = runAssigns l (fun x => if x = a.2 then m a.1 else m x) := rfl

theorem runAssigns_other {E : Type} (l : List Assign) (m : Addr → E) {x : Addr}
    (h : x ∉ l.map Prod.snd) : runAssigns l m x = m x := by
  induction l generalizing m with
  | nil => rfl
  | cons a l ih =>
    simp only [List.map_cons, List.mem_cons, not_or] at h
    rw [runAssigns_cons, ih _ h.2, if_neg h.1]

theorem runAssigns_mem {E : Type} (l : List Assign) (m : Addr → E) (hn : (l.map Prod.snd).Nodup)
    (hd : ∀ a ∈ l, ∀ b ∈ l, a.1 ≠ b.2) {s d : Addr} (h : (s, d) ∈ l) : runAssigns l m d = m s := by
  induction l generalizing m with
  | nil => simp at h
  | cons a l ih =>
    simp only [List.map_cons, List.nodup_cons] at hn
    rw [runAssigns_cons]
    rcases List.mem_cons.1 h with h | h
    · subst h
      rw [runAssigns_other _ _ hn.1, if_pos rfl]
    · rw [ih _ hn.2 (fun a ha b hb => hd a (List.mem_cons_of_mem _ ha) b (List.mem_cons_of_mem _ hb)) h,
        if_neg]
      exact hd _ (List.mem_cons_of_mem _ h) _ List.mem_cons_self

/-- With distinct destinations and no source that is also a destination the order does not matter. -/
theorem runAssigns_perm {E : Type} {l l' : List Assign} (hp : l'.Perm l) (m : Addr → E)
    (hn : (l.map Prod.snd).Nodup) (hd : ∀ a ∈ l, ∀ b ∈ l, a.1 ≠ b.2) :
    runAssigns l' m = runAssigns l m := by
  have hn' : (l'.map Prod.snd).Nodup := (hp.map _).nodup_iff.2 hn
  have hd' : ∀ a ∈ l', ∀ b ∈ l', a.1 ≠ b.2 :=
    fun a ha b hb => hd a (hp.subset ha) b (hp.subset hb)
  funext x
  by_cases hx : x ∈ l.map Prod.snd
  · obtain ⟨⟨s, d⟩, hsd, rfl⟩ := List.mem_map.1 hx
    rw [runAssigns_mem l m hn hd hsd, runAssigns_mem l' m hn' hd' (hp.symm.subset hsd)]
  · rw [runAssigns_other l m hx, runAssigns_other l' m]
    intro h
    exact hx ((hp.map _).subset h)

theorem storeAt_other {E : Type} (as : List Addr) (vs : List E) (m : Addr → E) {x : Addr}
    (h : x ∉ as) : storeAt as vs m x = m x := by
  induction as generalizing vs m with
  | nil => cases vs <;> rfl
  | cons a as ih =>
    cases vs with
    | nil => rfl
    | cons v vs =>
      simp only [List.mem_cons, not_or] at h
      show storeAt as vs _ x = m x
      rw [ih _ _ h.2, if_neg h.1]

theorem storeAt_map {E : Type} (as : List Addr) (vs : List E) (m : Addr → E) (hn : as.Nodup)
    (hl : vs.length = as.length) : as.map (storeAt as vs m) = vs := by
  induction as generalizing vs m with
  | nil =>
    cases vs with
    | nil => rfl
    | cons v vs => simp at hl
  | cons a as ih =>
    cases vs with
    | nil => simp at hl
    | cons v vs =>
      simp only [List.length_cons, Nat.succ_eq_add_one, Nat.add_right_cancel_iff] at hl
      rw [List.nodup_cons] at hn
      rw [List.map_cons]
      show storeAt as vs _ a :: as.map (storeAt as vs _) = v :: vs
      rw [ih _ _ hn.2 hl, storeAt_other _ _ _ hn.1, if_pos rfl]

/-! ### Cells of tiles -/

theorem TileRef.cells_eq (t : TileRef) :
    t.cells = (List.range (t.tile.cols.toNat * t.tile.rows.toNat)).map fun k : Nat =>
      t.addr ((k % t.tile.rows.toNat : Nat) : Int) ((k / t.tile.rows.toNat : Nat) : Int) := by
  unfold TileRef.cells
  exact range_mul_flatMap (fun j i : Nat => t.addr (i : Int) (j : Int)) _ _

theorem TileRef.cells_length (t : TileRef) :
    t.cells.length = t.tile.cols.toNat * t.tile.rows.toNat := by
  rw [t.cells_eq]; simp

theorem TileRef.mem_cells (t : TileRef) (x : Addr) :
    x ∈ t.cells ↔ ∃ i j : Int, 0 ≤ i ∧ i < t.tile.rows ∧ 0 ≤ j ∧ j < t.tile.cols ∧ x = t.addr i j := by
  unfold TileRef.cells
  simp only [List.mem_flatMap, List.mem_map, List.mem_range]
  constructor
  · rintro ⟨j, hj, i, hi, rfl⟩
    exact ⟨i, j, by omega, by omega, by omega, by omega, rfl⟩
  · rintro ⟨i, j, h1, h2, h3, h4, rfl⟩
    refine ⟨j.toNat, by omega, i.toNat, by omega, ?_⟩
    rw [Int.toNat_of_nonneg h1, Int.toNat_of_nonneg h3]

theorem TileRef.addr_inj {t : TileRef} (w : t.WF) {i j i' j' : Int} (h0 : 0 ≤ i) (h1 : i < t.tile.rows)
    (h0' : 0 ≤ i') (h1' : i' < t.tile.rows) (h : t.addr i j = t.addr i' j') : i = i' ∧ j = j' := by
  unfold TileRef.addr Tile.addr Tile.linearIndex at h
  simp only [Prod.mk.injEq, true_and] at h
  obtain ⟨_, _, hw⟩ := w
  have hy : j = j' := by
    rcases Int.lt_trichotomy j j' with hlt | he | hlt
    · have := Int.mul_le_mul_of_nonneg_left (show j + 1 ≤ j' by omega) (show 0 ≤ t.tile.ld by omega)
      have e : t.tile.ld * (j + 1) = t.tile.ld * j + t.tile.ld := by ring
      omega
    · exact he
    · have := Int.mul_le_mul_of_nonneg_left (show j' + 1 ≤ j by omega) (show 0 ≤ t.tile.ld by omega)
      have e : t.tile.ld * (j' + 1) = t.tile.ld * j' + t.tile.ld := by ring
      omega
  subst hy
  exact ⟨by omega, rfl⟩

theorem TileRef.cells_nodup {t : TileRef} (w : t.WF) : t.cells.Nodup := by
  rw [t.cells_eq]
  apply List.Nodup.map_on _ List.nodup_range
  intro k hk k' hk' he
  rw [List.mem_range] at hk hk'
  have hr : 0 < t.tile.rows.toNat := by
    rcases Nat.eq_zero_or_pos t.tile.rows.toNat with h | h
    · rw [h] at hk; simp at hk
    · exact h
  have a := Nat.mod_lt k hr
  have a' := Nat.mod_lt k' hr
  obtain ⟨h1, h2⟩ := TileRef.addr_inj w (by omega) (by omega) (by omega) (by omega) he
  have d1 := Nat.div_add_mod k t.tile.rows.toNat
  have d2 := Nat.div_add_mod k' t.tile.rows.toNat
  have h1 : k % t.tile.rows.toNat = k' % t.tile.rows.toNat := by exact_mod_cast h1
  have h2 : k / t.tile.rows.toNat = k' / t.tile.rows.toNat := by exact_mod_cast h2
  rw [h1, h2] at d1
  exact d1.symm.trans d2

theorem TileRef.data_some {t : TileRef} (w : t.WF) :
    ∃ d, t.data = some d ∧ d.cells = t.cells ∧ 0 ≤ d.nblocks ∧ 0 ≤ d.blocksize ∧
      (d.is_contiguous = true → d.nblocks = 1) := by
  obtain ⟨h1, h2, h3⟩ := w
  have : ∃ d, t.data = some d := by
    unfold TileRef.data Desc.make
    rw [if_pos ⟨h2, h1, by omega⟩]
    generalize (if t.tile.cols = 1 then 0 else t.tile.ld) = st'
    by_cases h : t.tile.rows = st'
    · exact ⟨_, if_pos h⟩
    · exact ⟨_, if_neg h⟩
  obtain ⟨d, hd⟩ := this
  refine ⟨d, hd, ?_⟩
  unfold TileRef.data at hd
  obtain ⟨e1, e2, e3, e4, e5, e6⟩ := Desc.make_strided hd
  refine ⟨?_, e4, e5, Desc.make_contig hd⟩
  unfold Desc.cells
  rw [e6, e1, e2]
  unfold strided TileRef.cells TileRef.addr Tile.addr
  rw [List.map_flatMap]
  congr 1
  funext j
  rw [List.map_map]
  congr 1
  funext i
  simp only [Function.comp, Tile.linearIndex]
  congr 2
  ring

theorem tileCopy_eq {heavy isFloat : Bool} {s d : TileRef} (ws : s.WF) (wd : d.WF)
    (h : s.SameShape d) : tileCopy heavy isFloat s d = some (s.cells.zip d.cells) := by
  obtain ⟨h1, h2⟩ := h
  unfold tileCopy
  cases isFloat with
  | true =>
    simp only [if_true, tileCopyFloat, h1, h2, beq_self_eq_true, Bool.and_self, Bool.not_true,
      Bool.and_false, Bool.false_eq_true, if_false, Option.some.injEq]
    rw [s.cells_eq, d.cells_eq, h1, h2]
    rw [range_mul_flatMap (fun j i : Nat => (s.addr (i : Int) (j : Int), d.addr (i : Int) (j : Int)))]
    rw [List.zip_map', ]
  | false =>
    obtain ⟨ds, e1, e2, e3, e4, e5⟩ := TileRef.data_some ws
    obtain ⟨dd, f1, f2, f3, f4, f5⟩ := TileRef.data_some wd
    simp only [Bool.false_eq_true, if_false, tileCopyGeneric, h1, h2, beq_self_eq_true, Bool.and_self,
      Bool.not_true, Bool.and_false, e1, f1, Option.bind_some]
    rw [dataCopy_eq e3 e4 f3 f4 e5 f5, e2, f2]
    rw [e2, f2, s.cells_length, d.cells_length, h1, h2]

theorem msgRead_eq {E : Type} {t : TileRef} (w : t.WF) (m : Addr → E) :
    msgRead t m = some (t.contents m) := by
  obtain ⟨d, e1, e2, e3, e4, e5⟩ := TileRef.data_some w
  unfold msgRead TileRef.contents
  rw [e1, Option.map_some, Message.elements_eq e5, e2]

theorem msgWrite_eq {E : Type} {t : TileRef} (w : t.WF) (vs : List E) (m : Addr → E) :
    msgWrite t vs m = some (storeAt t.cells vs m) := by
  obtain ⟨d, e1, e2, e3, e4, e5⟩ := TileRef.data_some w
  unfold msgWrite
  rw [e1, Option.map_some, Message.elements_eq e5, e2]

/-- A tile reported contiguous is sent with the basic datatype. -/
theorem basic_of_contig {t : TileRef} (w : t.WF) (h : t.is_contiguous = true) :
    (t.data.map fun d => (Message.make d).type == .basic) = some true := by
  obtain ⟨h1, h2, h3⟩ := w
  unfold TileRef.is_contiguous at h
  simp only [beq_iff_eq] at h
  unfold TileRef.data Desc.make
  rw [if_pos ⟨h2, h1, by omega⟩]
  by_cases hc : t.tile.cols = 1
  · have hne : ¬ t.tile.rows = 0 := by omega
    simp [hc, hne, Message.make, Desc.is_contiguous]
  · simp [hc, h, Message.make, Desc.is_contiguous]

/-- Effect of the assignments "k-th cell of `s` to k-th cell of `d`". -/
theorem runAssigns_zip {E : Type} {s d : List Addr} (hl : s.length = d.length) (hn : d.Nodup)
    (hdis : ∀ x ∈ s, x ∉ d) (m : Addr → E) :
    d.map (runAssigns (s.zip d) m) = s.map m ∧ ∀ x, x ∉ d → runAssigns (s.zip d) m x = m x := by
  have hsnd : (s.zip d).map Prod.snd = d := List.map_snd_zip (by omega)
  constructor
  · apply List.ext_getElem
    · simp [hl]
    · intro k h1 h2
      simp only [List.length_map] at h1 h2
      rw [List.getElem_map, List.getElem_map]
      apply runAssigns_mem
      · rw [hsnd]; exact hn
      · rintro ⟨a1, a2⟩ ha ⟨b1, b2⟩ hb he
        simp only at he
        subst he
        exact hdis _ (List.of_mem_zip ha).1 (List.of_mem_zip hb).2
      · rw [List.mem_iff_getElem]
        exact ⟨k, by simp; omega, by simp [List.getElem_zip]⟩
  · intro x hx
    exact runAssigns_other _ _ (by rw [hsnd]; exact hx)

theorem TileRef.cells_obj {t : TileRef} {x : Addr} (h : x ∈ t.cells) : x.1 = t.obj := by
  obtain ⟨i, j, _, _, _, _, rfl⟩ := (t.mem_cells x).1 h
  rfl

end DLAF
