import Verif.Lemmas.Data
/- C22: strided buffers are described faithfully. -/
namespace DLAF

/-- Positions as addresses of the buffer (object, chunk). -/
def cellsOf (obj : Nat) (c : ChunkId) (l : List Int) : List Addr := l.map fun x => (obj, c, x)

/-- C22: the descriptor built from (pointer, blocks, block size, stride), however normalised, makes an MPI
message that addresses exactly the elements of the blocks, in order; and it counts them. -/
theorem C22_message_elements {obj : Nat} {c : ChunkId} {off nb bs st : Int} {d : Desc}
    (h : Desc.make obj c off nb bs st = some d) :
    (Message.make d).elements = cellsOf obj c (strided off nb bs st) ∧
    d.count = ((strided off nb bs st).length : Int) := by
  obtain ⟨e1, e2, e3, e4, e5, e6⟩ := Desc.make_strided h
  constructor
  · rw [Message.elements_eq (Desc.make_contig h), Desc.cells, e6, e1, e2]
    rfl
  · rw [← e6, strided_length]
    have := toNat_mul' e4 e5
    have hn := Int.mul_nonneg e4 e5
    unfold Desc.count
    split
    · rename_i hc
      rw [Desc.make_contig h hc]
      simp
      omega
    · push_cast
      rw [Int.toNat_of_nonneg e4, Int.toNat_of_nonneg e5]

example : Desc.make 0 .whole 5 3 2 4 = some ⟨0, .whole, 5, 3, 2, 4⟩ ∧
    strided 5 3 2 4 = [5, 6, 9, 10, 13, 14] := by decide

/-- C22: the constructor rejects only negative arguments. -/
theorem C22_accepts {obj : Nat} {c : ChunkId} {off nb bs st : Int} :
    (∃ d, Desc.make obj c off nb bs st = some d) ↔ 0 ≤ nb ∧ 0 ≤ bs ∧ 0 ≤ st := by
  unfold Desc.make
  constructor
  · rintro ⟨d, hd⟩
    split at hd
    · assumption
    · simp at hd
  · intro h
    rw [if_pos h]
    generalize (if nb = 1 then 0 else st) = st'
    by_cases e : bs = st'
    · exact ⟨_, if_pos e⟩
    · exact ⟨_, if_neg e⟩

/-- C22: contiguity is reported only when the elements are consecutive in memory. -/
theorem C22_contiguous_sound {obj : Nat} {c : ChunkId} {off nb bs st : Int} {d : Desc}
    (h : Desc.make obj c off nb bs st = some d) (hc : d.is_contiguous = true) :
    strided off nb bs st = (List.range (strided off nb bs st).length).map fun k : Nat => off + (k : Int) := by
  obtain ⟨e1, e2, e3, e4, e5, e6⟩ := Desc.make_strided h
  have h1 := Desc.make_contig h hc
  rw [← e6, ← e3, h1]
  apply List.ext_getElem
  · simp
  · intro k a b
    rw [strided_getElem, List.getElem_map, List.getElem_range]
    rw [strided_length] at a
    simp only [Int.toNat_one, Nat.one_mul] at a
    rw [Nat.div_eq_of_lt a, Nat.mod_eq_of_lt a]
    simp

example : ∃ d, Desc.make 0 .whole 5 3 4 4 = some d ∧ d.is_contiguous = true ∧ d.count = 12 :=
  ⟨_, rfl, by decide, by decide⟩

/-- C22: consecutive elements (of a non-empty descriptor) are reported as contiguous. -/
theorem C22_contiguous_complete {obj : Nat} {c : ChunkId} {off nb bs st : Int} {d : Desc}
    (h : Desc.make obj c off nb bs st = some d) (hnb : 1 ≤ nb) (hbs : 1 ≤ bs)
    (hcons : strided off nb bs st =
      (List.range (strided off nb bs st).length).map fun k : Nat => off + (k : Int)) :
    d.is_contiguous = true := by
  have hlen := strided_length off nb bs st
  have key : nb = 1 ∨ bs = st := by
    by_contra hn
    rw [not_or] at hn
    have hk : bs.toNat < (strided off nb bs st).length := by
      rw [hlen]
      have h2 : 2 ≤ nb.toNat := by omega
      have := Nat.mul_le_mul_right bs.toNat h2
      omega
    have hr : (strided off nb bs st)[bs.toNat]'hk = off + (bs.toNat : Int) := by
      have := congrArg (fun l => l[bs.toNat]?) hcons
      simp only [List.getElem?_eq_getElem hk, List.getElem?_map,
        List.getElem?_range hk, Option.map_some, Option.some.injEq] at this
      exact this
    rw [strided_getElem, Nat.div_self (by omega), Nat.mod_self] at hr
    simp at hr
    omega
  unfold Desc.make at h
  split at h
  swap
  · simp at h
  generalize hst : (if nb = 1 then 0 else st) = st' at h
  dsimp only at h
  split at h
  · simp only [Option.some.injEq] at h
    subst h
    simp [Desc.is_contiguous]
  · rename_i hne
    simp only [Option.some.injEq] at h
    subst h
    rcases key with h1 | h1
    · simp [Desc.is_contiguous, h1]
    · by_cases h2 : nb = 1
      · simp [Desc.is_contiguous, h2]
      · rw [if_neg h2] at hst
        omega

/-- Distinct positions when blocks do not overlap. -/
theorem strided_nodup {off nb bs st : Int} (h : nb ≤ 1 ∨ bs ≤ st) : (strided off nb bs st).Nodup := by
  rw [List.Nodup, List.pairwise_iff_getElem]
  intro k k' hk hk' hlt he
  rw [strided_getElem, strided_getElem] at he
  rw [strided_length] at hk hk'
  have hb : 0 < bs.toNat := by
    rcases Nat.eq_zero_or_pos bs.toNat with h | h
    · rw [h] at hk; simp at hk
    · exact h
  have m1 := Nat.mod_lt k hb
  have m2 := Nat.mod_lt k' hb
  have d1 := Nat.div_add_mod k bs.toNat
  have d2 := Nat.div_add_mod k' bs.toNat
  have l1 : k / bs.toNat < nb.toNat := by
    rw [Nat.div_lt_iff_lt_mul hb]; exact hk
  have l2 : k' / bs.toNat < nb.toNat := by
    rw [Nat.div_lt_iff_lt_mul hb]; exact hk'
  generalize k / bs.toNat = a at *
  generalize k' / bs.toNat = a' at *
  generalize k % bs.toNat = b at *
  generalize k' % bs.toNat = b' at *
  have haa : a ≤ a' := by
    by_contra hc
    have := Nat.mul_le_mul_left bs.toNat (show a' + 1 ≤ a by omega)
    rw [Nat.mul_add] at this
    omega
  rcases Nat.lt_or_eq_of_le haa with hl | hl
  · rcases h with h | h
    · omega
    · have h5 := Int.mul_le_mul_of_nonneg_right (show (a : Int) + 1 ≤ a' by omega) (show 0 ≤ st by omega)
      have e : ((a : Int) + 1) * st = a * st + st := by ring
      omega
  · subst hl
    omega

/-- C22: copying between two descriptors with the same number of elements transfers element k to element
k and changes nothing else — whatever the combination of contiguous and strided, in Debug and Release
builds, provided the destination blocks do not overlap and source and destination are disjoint. -/
theorem C22_copy {E : Type} (heavy : Bool) {o o' : Nat} {c c' : ChunkId}
    {off nb bs st off' nb' bs' st' : Int} {s d : Desc}
    (hs : Desc.make o c off nb bs st = some s) (hd : Desc.make o' c' off' nb' bs' st' = some d)
    (hlen : (strided off nb bs st).length = (strided off' nb' bs' st').length)
    (hdst : nb' ≤ 1 ∨ bs' ≤ st')
    (hdis : ∀ x ∈ cellsOf o c (strided off nb bs st), x ∉ cellsOf o' c' (strided off' nb' bs' st')) :
    ∃ l, dataCopy heavy s d = some l ∧ ∀ m : Addr → E,
      (∀ k (h : k < (strided off nb bs st).length) (h' : k < (strided off' nb' bs' st').length),
        runAssigns l m (o', c', (strided off' nb' bs' st')[k]) = m (o, c, (strided off nb bs st)[k])) ∧
      ∀ x, x ∉ cellsOf o' c' (strided off' nb' bs' st') → runAssigns l m x = m x := by
  obtain ⟨e1, e2, e3, e4, e5, e6⟩ := Desc.make_strided hs
  obtain ⟨f1, f2, f3, f4, f5, f6⟩ := Desc.make_strided hd
  have c1 : s.cells = cellsOf o c (strided off nb bs st) := by rw [Desc.cells, e6, e1, e2]; rfl
  have c2 : d.cells = cellsOf o' c' (strided off' nb' bs' st') := by rw [Desc.cells, f6, f1, f2]; rfl
  have hl : s.cells.length = d.cells.length := by rw [c1, c2]; simp [cellsOf, hlen]
  refine ⟨_, dataCopy_eq e4 e5 f4 f5 (Desc.make_contig hs) (Desc.make_contig hd) hl, fun m => ?_⟩
  rw [c1, c2] at *
  have hn : (cellsOf o' c' (strided off' nb' bs' st')).Nodup := by
    unfold cellsOf
    apply List.Nodup.map _ (strided_nodup hdst)
    intro x y hxy
    simpa using hxy
  obtain ⟨g1, g2⟩ := runAssigns_zip hl hn hdis m
  refine ⟨fun k h h' => ?_, g2⟩
  have := congrArg (fun l => l[k]?) g1
  simp only [cellsOf, List.map_map, List.getElem?_map, List.getElem?_eq_getElem h,
    List.getElem?_eq_getElem h', Option.map_some, Option.some.injEq, Function.comp] at this
  exact this

example : ∃ s d, Desc.make 0 .whole 5 3 2 4 = some s ∧ Desc.make 1 .whole 0 2 3 7 = some d ∧
    (strided 5 3 2 4).length = (strided 0 2 3 7).length ∧
    dataCopy true s d = some [((0, .whole, 5), (1, .whole, 0)), ((0, .whole, 6), (1, .whole, 1)),
      ((0, .whole, 9), (1, .whole, 2)), ((0, .whole, 10), (1, .whole, 7)),
      ((0, .whole, 13), (1, .whole, 8)), ((0, .whole, 14), (1, .whole, 9))] :=
  ⟨_, _, rfl, rfl, by decide, by decide⟩

/-- C22: in Debug builds a copy between descriptors with different numbers of elements is refused. -/
theorem C22_copy_rejects {o o' : Nat} {c c' : ChunkId} {off nb bs st off' nb' bs' st' : Int} {s d : Desc}
    (hs : Desc.make o c off nb bs st = some s) (hd : Desc.make o' c' off' nb' bs' st' = some d)
    (hlen : (strided off nb bs st).length ≠ (strided off' nb' bs' st').length) :
    dataCopy true s d = none := by
  have hc1 := (C22_message_elements hs).2
  have hc2 := (C22_message_elements hd).2
  have hne : s.count ≠ d.count := by omega
  unfold dataCopy
  have k1 := Desc.make_contig hs
  have k2 := Desc.make_contig hd
  unfold Desc.count at hne
  by_cases a1 : d.is_contiguous = true <;> by_cases a2 : s.is_contiguous = true <;>
    simp [a1, a2] at hne <;> simp [a1, a2, Desc.count, hne]

example : ∃ s d, Desc.make 0 .whole 5 3 2 4 = some s ∧ Desc.make 1 .whole 0 2 2 7 = some d ∧
    (strided 5 3 2 4).length ≠ (strided 0 2 2 7).length := ⟨_, _, rfl, rfl, by decide⟩

/-- C22: the message made for a tile addresses exactly the elements of the tile, column by column. -/
theorem C22_tile_message {t : TileRef} (w : t.WF) :
    ∃ d, t.data = some d ∧ (Message.make d).elements = t.cells ∧
      d.count = t.tile.rows * t.tile.cols := by
  obtain ⟨d, e1, e2, e3, e4, e5⟩ := TileRef.data_some w
  refine ⟨d, e1, by rw [Message.elements_eq e5, e2], ?_⟩
  unfold TileRef.data at e1
  obtain ⟨w1, w2, w3⟩ := w
  rw [(C22_message_elements e1).2, strided_length, Int.natCast_mul, Int.toNat_of_nonneg w1,
    Int.toNat_of_nonneg w2, Int.mul_comm]

/-- C22: a tile whose leading dimension equals its number of rows occupies consecutive cells. -/
theorem C22_tile_contiguous {t : TileRef} (w : t.WF) (h : t.is_contiguous = true) :
    t.cells = (List.range (t.tile.rows * t.tile.cols).toNat).map fun k : Nat =>
      (t.obj, t.tile.view.chunk, t.tile.view.offset + (k : Int)) := by
  unfold TileRef.is_contiguous at h
  simp only [beq_iff_eq] at h
  obtain ⟨w1, w2, w3⟩ := w
  rw [t.cells_eq, toNat_mul' w1 w2, Nat.mul_comm]
  apply List.map_congr_left
  intro k hk
  simp only [TileRef.addr, Tile.addr, Tile.linearIndex, h]
  congr 3
  have := Nat.div_add_mod k t.tile.rows.toNat
  have h3 : ((t.tile.rows.toNat * (k / t.tile.rows.toNat) + k % t.tile.rows.toNat : Nat) : Int) = (k : Int) := by
    rw [this]
  rw [Nat.cast_add, Nat.cast_mul, Int.toNat_of_nonneg w1] at h3
  omega

example : ∃ t : TileRef, t.WF ∧ t.is_contiguous = true ∧ t.cells.length = 6 :=
  ⟨⟨0, ⟨2, 3, ⟨.whole, 4, 6⟩, 2⟩⟩, by decide, by decide, by decide⟩

end DLAF
