import Verif.Model.Memory
import Verif.Props.Distribution
/- Lemmas on memory layouts. -/
namespace DLAF

theorem mapOpt_getElem? {α β : Type _} {f : α → Option β} :
    ∀ {l : List α} {bs : List β}, mapOpt f l = some bs → ∀ k : Nat, bs[k]? = l[k]?.bind f
  | [], bs, h, k => by simp [mapOpt] at h; subst h; simp
  | a :: as, bs, h, k => by
    rw [mapOpt] at h
    cases ha : f a with
    | none => rw [ha] at h; simp at h
    | some b =>
      cases hb : mapOpt f as with
      | none => rw [ha, hb] at h; simp at h
      | some bs' =>
        rw [ha, hb] at h
        simp only [Option.some.injEq] at h
        subst h
        cases k with
        | zero => simp [ha]
        | succ k => simpa using mapOpt_getElem? hb k

theorem mapOpt_length {α β : Type _} {f : α → Option β} :
    ∀ {l : List α} {bs : List β}, mapOpt f l = some bs → bs.length = l.length
  | [], bs, h => by simp [mapOpt] at h; subst h; rfl
  | a :: as, bs, h => by
    rw [mapOpt] at h
    cases ha : f a with
    | none => rw [ha] at h; simp at h
    | some b =>
      cases hb : mapOpt f as with
      | none => rw [ha, hb] at h; simp at h
      | some bs' =>
        rw [ha, hb] at h
        simp only [Option.some.injEq] at h
        subst h
        simp [mapOpt_length hb]

theorem mapOpt_isSome {α β : Type _} {f : α → Option β} :
    ∀ {l : List α}, (∀ a ∈ l, ∃ b, f a = some b) → ∃ bs, mapOpt f l = some bs
  | [], _ => ⟨[], rfl⟩
  | a :: as, h => by
    obtain ⟨b, hb⟩ := h a (by simp)
    obtain ⟨bs, hbs⟩ := mapOpt_isSome (f := f) (l := as) (fun x hx => h x (by simp [hx]))
    exact ⟨b :: bs, by simp [mapOpt, hb, hbs]⟩

/-- column-major enumeration of pairs -/
theorem grid_getElem? {α β γ : Type _} (g : β → α → γ) (rs : List α) :
    ∀ (cs : List β) (i j : Nat), i < rs.length →
      (cs.flatMap fun c => rs.map fun r => g c r)[i + rs.length * j]? =
        cs[j]?.bind fun c => rs[i]?.map fun r => g c r
  | [], i, j, _ => by simp
  | c :: cs, i, 0, h => by
    simp only [List.flatMap_cons, Nat.mul_zero, Nat.add_zero]
    rw [List.getElem?_append_left (by simpa using h)]
    simp
  | c :: cs, i, j + 1, h => by
    simp only [List.flatMap_cons]
    have e : i + rs.length * (j + 1) = (rs.map fun r => g c r).length + (i + rs.length * j) := by
      simp; ring
    rw [e, List.getElem?_append_right (by omega)]
    simpa using grid_getElem? g rs cs i j h

theorem grid_mem {α β γ : Type _} (g : β → α → γ) (rs : List α) (cs : List β) (x : γ) :
    x ∈ (cs.flatMap fun c => rs.map fun r => g c r) ↔ ∃ c ∈ cs, ∃ r ∈ rs, g c r = x := by
  simp [List.mem_flatMap]

theorem localTiles_getElem? (d : Distribution) {i j : Int} (hi : 0 ≤ i) (hi' : i < d.row.localNrTiles)
    (hj : 0 ≤ j) (hj' : j < d.col.localNrTiles) :
    (localTiles d)[(tile_linear_index d i j).toNat]? = some (i.toNat, j.toNat) := by
  have := grid_getElem? (fun (c r : Nat) => (r, c)) (List.range d.row.localNrTiles.toNat)
    (List.range d.col.localNrTiles.toNat) i.toNat j.toNat (by simp; omega)
  have e : (tile_linear_index d i j).toNat = i.toNat + d.row.localNrTiles.toNat * j.toNat := by
    unfold tile_linear_index
    obtain ⟨a, rfl⟩ := Int.eq_ofNat_of_zero_le hi
    obtain ⟨b, rfl⟩ := Int.eq_ofNat_of_zero_le hj
    obtain ⟨c, hc⟩ := Int.eq_ofNat_of_zero_le (show 0 ≤ d.row.localNrTiles by omega)
    rw [hc]
    have : ((a : Int) + c * b) = ((a + c * b : Nat) : Int) := by push_cast; ring
    simp only [this, Int.toNat_natCast]
  rw [e]
  unfold localTiles
  simp only [List.length_range] at this
  rw [this, List.getElem?_range (by omega), Option.bind_some, List.getElem?_range (by omega)]
  rfl

theorem mem_localTiles (d : Distribution) (ij : Nat × Nat) :
    ij ∈ localTiles d ↔ ij.1 < d.row.localNrTiles.toNat ∧ ij.2 < d.col.localNrTiles.toNat := by
  unfold localTiles
  simp only [List.mem_flatMap, List.mem_range, List.mem_map]
  constructor
  · rintro ⟨j, hj, i, hi, rfl⟩; exact ⟨hi, hj⟩
  · rintro ⟨h1, h2⟩; exact ⟨ij.2, h2, ij.1, h1, rfl⟩

theorem compute_ld_some {al rows : Int} {ld : LdSpec} {l : Int} (h : compute_ld al rows ld = some l) :
    1 ≤ l ∧ rows ≤ l := by
  unfold compute_ld at h
  simp only [Option.ite_none_right_eq_some, Option.some.injEq] at h
  obtain ⟨h1, h2⟩ := h
  rw [h2] at h1
  omega

/-- compact and padded leading dimensions are always accepted, explicit ones if large enough -/
theorem compute_ld_accept {al rows : Int} {ld : LdSpec} (ha : 0 < al)
    (h : ∀ v, ld = .value v → max 1 rows ≤ v) : ∃ l, compute_ld al rows ld = some l := by
  unfold compute_ld
  cases ld with
  | compact => exact ⟨_, by simp; rfl⟩
  | padded =>
    simp only
    by_cases h1 : max 1 rows < al
    · rw [if_pos h1]; exact ⟨_, by simp; rfl⟩
    · rw [if_neg h1]
      rw [if_pos]
      · exact ⟨_, rfl⟩
      · unfold ceilDiv
        obtain ⟨q, r, hq, hr, hr', he⟩ := exists_divmod (a := max 1 rows + al - 1) (b := al) (by omega) ha
        rw [cdiv_eq hq hr hr' he]
        omega
  | value v => exact ⟨v, by simp; have := h v rfl; omega⟩

/-- first local element of a local tile -/
def Dist1.E (d : Dist1) (t : Int) : Int := d.local_element_from_local_tile_and_tile_element t 0

theorem Dist1.WF.pos_of_localSize {d : Dist1} (w : d.WF) (h : d.localSize ≠ 0) : 0 < d.localNrTiles := by
  by_contra hc
  have h0 : d.localNrTiles = 0 := by have := w.localNrTiles_nonneg; omega
  apply h
  rw [w.localSize_eq, Dist1.compute_local_size, if_pos h0]

theorem Dist1.WF.localSize_nonneg {d : Dist1} (w : d.WF) : 0 ≤ d.localSize := by
  by_cases h : d.localSize = 0
  · omega
  have hN := w.pos_of_localSize h
  obtain ⟨_, h2, h3⟩ := w.localSize_bounds hN
  have := w.lteo_range
  by_cases h1 : d.localNrTiles = 1
  · -- the source tile: use the count form
    rw [w.localSize_next]
    exact w.cycE.next_local_nonneg w.size_nonneg
  · have : d.tileSize * 1 ≤ d.tileSize * (d.localNrTiles - 1) :=
      Int.mul_le_mul_of_nonneg_left (by omega) (by omega)
    rw [Int.mul_comm d.tileSize (d.localNrTiles - 1)] at this
    omega

theorem Dist1.WF.global_tsz_pos {d : Dist1} (w : d.WF) {t : Int} (h0 : 0 ≤ t) (h1 : t < d.nrTiles) :
    1 ≤ d.global_tile_size_of t := by
  have hN := w.nrTiles_pos (w.size_pos_of (by omega))
  have hc := w.global_tsz h0 h1
  have := w.gteo_nonneg
  have := w.gteo_lt
  have ht := w.tile_pos
  have q1 : (d.nrTiles - 1) * d.tileSize = d.nrTiles * d.tileSize - d.tileSize := by ring
  have hsz := w.size_pos_of (show 0 < d.nrTiles by omega)
  have q0 : d.nrTiles = 1 → d.nrTiles * d.tileSize = d.tileSize := by intro h; rw [h]; ring
  rw [hc]; split_ifs <;> omega

/-- position of each local tile -/
theorem Dist1.WF.E_bounds {d : Dist1} (w : d.WF) {t : Int} (h0 : 0 ≤ t) (h1 : t < d.localNrTiles) :
    0 ≤ d.E t ∧ 1 ≤ d.local_tile_size_of t ∧ d.E t + d.local_tile_size_of t ≤ d.localSize ∧
    d.E t = t * d.tileSize - (if t > 0 then d.local_tile_element_offset else 0) ∧
    (if t + 1 = d.localNrTiles then d.E t + d.local_tile_size_of t = d.localSize
      else d.E (t + 1) = d.E t + d.local_tile_size_of t) := by
  obtain ⟨hb1, hb2, hb3⟩ := w.localSize_bounds (by omega)
  have hl := w.lteo_range
  have hsz := w.local_tsz h0 h1
  have hn := w.localSize_nonneg
  have hpos : 1 ≤ d.local_tile_size_of t := by
    rw [w.local_tsz_eq h0 h1]
    exact w.global_tsz_pos (w.cyc.global_local h0).1
      (w.cyc.global_lt h0 w.nrTiles_nonneg (by rw [w.localNrTiles_eq] at h1; exact h1))
  have hts := w.tile_pos
  have hE : d.E t = t * d.tileSize - (if t > 0 then d.local_tile_element_offset else 0) := by
    simp [Dist1.E, Dist1.local_element_from_local_tile_and_tile_element,
      util.element_from_tile_and_tile_element]
  have hE1 : d.E (t + 1) = t * d.tileSize + d.tileSize - d.local_tile_element_offset := by
    have : t + 1 > 0 := by omega
    simp [Dist1.E, Dist1.local_element_from_local_tile_and_tile_element,
      util.element_from_tile_and_tile_element, this]
    ring
  have hmul : t = 0 ∨ d.tileSize ≤ t * d.tileSize := by
    by_cases h : t = 0
    · exact Or.inl h
    · right
      have := Int.mul_le_mul_of_nonneg_right (show 1 ≤ t by omega) (Int.le_of_lt hts)
      omega
  have hm2 : (t + 1) * d.tileSize ≤ d.localNrTiles * d.tileSize :=
    Int.mul_le_mul_of_nonneg_right (by omega) (Int.le_of_lt hts)
  have e1 : (t + 1) * d.tileSize = t * d.tileSize + d.tileSize := by ring
  have hm3 : t + 1 = d.localNrTiles ∨ (t + 1) * d.tileSize ≤ (d.localNrTiles - 1) * d.tileSize := by
    by_cases h : t + 1 = d.localNrTiles
    · exact Or.inl h
    · exact Or.inr (Int.mul_le_mul_of_nonneg_right (by omega) (Int.le_of_lt hts))
  have e2 : t = d.localNrTiles - 1 → d.localNrTiles * d.tileSize = t * d.tileSize + d.tileSize := by
    intro h; rw [show d.localNrTiles = t + 1 by omega]; ring
  have e3 : t = 0 → t * d.tileSize = 0 := by intro h; rw [h]; ring
  refine ⟨?_, hpos, ?_, hE, ?_⟩
  · rw [hE]; split_ifs <;> omega
  · rw [hE, hsz]; split_ifs <;> omega
  · by_cases h : t + 1 = d.localNrTiles
    · rw [if_pos h, hE, hsz]; split_ifs <;> omega
    · rw [if_neg h, hE, hE1, hsz]; split_ifs <;> omega

theorem Params.Valid.local_split {p : Params} (hp : p.Valid) {e : Int} (he : 0 ≤ e) (hes : e < p.dist.localSize) :
    ∃ t te, p.dist.local_tile_from_local_element e = t ∧ p.dist.tile_element_from_local_element e = te ∧
      0 ≤ t ∧ t < p.dist.localNrTiles ∧ 0 ≤ te ∧ te < p.dist.local_tile_size_of t ∧
      e = p.dist.E t + te := by
  obtain ⟨h1, h2, h3, h4, h5⟩ := C03_local_split hp he hes
  refine ⟨_, _, rfl, rfl, h2, h3, h4, h5, ?_⟩
  unfold Dist1.local_element_from_local_tile_and_tile_element
    util.element_from_tile_and_tile_element at h1
  unfold Dist1.E Dist1.local_element_from_local_tile_and_tile_element
    util.element_from_tile_and_tile_element
  omega

/-! ### blocks -/

/-- first local element of a local block, for `n` elements in `B` blocks of `bs`, first one cut by
`off` -/
def blkQ (n off bs B b : Int) : Int := if b = 0 then 0 else if b = B then n else b * bs - off

theorem blkQ_step {n off bs B b : Int} (hoff : 0 ≤ off) (hoff' : off < bs)
    (h1 : (B - 1) * bs < n + off) (h2 : n + off ≤ B * bs) (hb : 0 ≤ b) (hbB : b < B) :
    blkQ n off bs B (b + 1) = blkQ n off bs B b +
      (if b = 0 then min (bs - off) n else min bs (n + off - b * bs)) := by
  rw [tsz_closed hoff hoff' h1 h2 hb hbB]
  unfold blkQ
  have e1 : (b + 1) * bs = b * bs + bs := by ring
  by_cases h : b + 1 = B
  · have e2 : B * bs = b * bs + bs := by rw [← h]; ring
    rw [if_neg (by omega), if_pos h, if_pos (by omega : b = B - 1)]
    by_cases h0 : b = 0
    · subst h0; simp at *; omega
    · rw [if_neg h0, if_neg (by omega), if_neg h0]; omega
  · rw [if_neg (by omega), if_neg h, if_neg (by omega : ¬ b = B - 1)]
    by_cases h0 : b = 0
    · subst h0; simp
    · rw [if_neg h0, if_neg (by omega), if_neg h0]; omega

theorem Dist1.WF.blockNr {d : Dist1} (w : d.WF) (hN : 0 < d.localNrTiles) :
    0 ≤ d.local_tile_offset ∧ d.local_tile_offset < d.tiles_per_block ∧ 0 < d.local_nr_blocks ∧
    (d.local_nr_blocks - 1) * d.tiles_per_block < d.localNrTiles + d.local_tile_offset ∧
    d.localNrTiles + d.local_tile_offset ≤ d.local_nr_blocks * d.tiles_per_block := by
  have h1 : 0 ≤ d.local_tile_offset ∧ d.local_tile_offset < d.tiles_per_block := by
    have := w.gto_nonneg; have := w.gto_lt; have := w.tpb_pos
    unfold Dist1.local_tile_offset; split <;> omega
  have hT := w.tpb_pos
  obtain ⟨q, r, hq, hr, hr', he⟩ := exists_divmod
    (a := d.localNrTiles + d.local_tile_offset + d.tiles_per_block - 1) (b := d.tiles_per_block)
    (by omega) hT
  have hB : d.local_nr_blocks = q := by
    unfold Dist1.local_nr_blocks ceilDiv; exact cdiv_eq hq hr hr' he
  have e : (q - 1) * d.tiles_per_block = q * d.tiles_per_block - d.tiles_per_block := by ring
  rw [hB]
  refine ⟨h1.1, h1.2, ?_, by omega, by omega⟩
  by_contra hc
  have : q = 0 := by omega
  subst this
  simp at he e
  omega

theorem Dist1.WF.helper {d : Dist1} (w : d.WF) :
    d.single_tile_per_block.local_nr_blocks = d.local_nr_blocks ∧
    d.single_tile_per_block.local_tile_element_offset =
      d.local_tile_offset * d.tileSize + d.local_tile_element_offset := by
  have hb := w.block_pos
  have ho := w.offset_nonneg
  have ho' := w.offset_lt
  have t1 : d.single_tile_per_block.tiles_per_block = 1 :=
    cdiv_eq (a := d.blockSize) (b := d.blockSize) (r := 0) (by omega) (by omega) (by omega) (by omega)
  have t2 : d.single_tile_per_block.global_tile_offset = 0 :=
    cdiv_eq (a := d.offset) (b := d.blockSize) (r := d.offset) (by omega) (by omega) (by omega) (by omega)
  have t3 : d.single_tile_per_block.global_tile_element_offset = d.offset :=
    cmod_eq (a := d.offset) (b := d.blockSize) (q := 0) (by omega) (by omega) (by omega) (by omega)
  constructor
  · have : d.single_tile_per_block.local_tile_offset = 0 := by
      unfold Dist1.local_tile_offset; rw [t2]; simp
    conv_lhs => unfold Dist1.local_nr_blocks
    rw [this, t1]
    show ceilDiv (d.local_nr_blocks + 0) 1 = _
    simp [ceilDiv]
  · unfold Dist1.local_tile_element_offset Dist1.local_tile_offset
    rw [t3]
    show (if d.rank = d.src then d.offset else 0) = _
    have := w.offset_eq
    split <;> simp_all

/-- `blkQ` of a distribution -/
def Dist1.Q (d : Dist1) (b : Int) : Int :=
  blkQ d.localSize (d.local_tile_offset * d.tileSize + d.local_tile_element_offset) d.blockSize
    d.local_nr_blocks b

/-- first local tile of local block `b` -/
def Dist1.F (d : Dist1) (b : Int) : Int :=
  blkQ d.localNrTiles d.local_tile_offset d.tiles_per_block d.local_nr_blocks b

/-- prefix of tile positions including the end -/
def Dist1.P (d : Dist1) (t : Int) : Int := if t = d.localNrTiles then d.localSize else d.E t

theorem Dist1.WF.Q_bounds {d : Dist1} (w : d.WF) (hN : 0 < d.localNrTiles) :
    0 ≤ d.local_tile_offset * d.tileSize + d.local_tile_element_offset ∧
    d.local_tile_offset * d.tileSize + d.local_tile_element_offset < d.blockSize ∧
    (d.local_nr_blocks - 1) * d.blockSize <
      d.localSize + (d.local_tile_offset * d.tileSize + d.local_tile_element_offset) ∧
    d.localSize + (d.local_tile_offset * d.tileSize + d.local_tile_element_offset)
      ≤ d.local_nr_blocks * d.blockSize := by
  obtain ⟨a1, a2, a3, a4, a5⟩ := w.blockNr hN
  obtain ⟨_, b2, b3⟩ := w.localSize_bounds hN
  have hl := w.lteo_range
  have ht := w.tile_pos
  have m1 := Int.mul_le_mul_of_nonneg_right (show d.local_tile_offset + 1 ≤ d.tiles_per_block by omega)
    (Int.le_of_lt ht)
  have m2 := Int.mul_le_mul_of_nonneg_right
    (show (d.local_nr_blocks - 1) * d.tiles_per_block ≤ d.localNrTiles - 1 + d.local_tile_offset by omega)
    (Int.le_of_lt ht)
  have m3 := Int.mul_le_mul_of_nonneg_right a5 (Int.le_of_lt ht)
  have m4 := Int.mul_nonneg a1 (Int.le_of_lt ht)
  have e1 : (d.local_tile_offset + 1) * d.tileSize = d.local_tile_offset * d.tileSize + d.tileSize := by
    ring
  have e2 : (d.localNrTiles - 1 + d.local_tile_offset) * d.tileSize =
    (d.localNrTiles - 1) * d.tileSize + d.local_tile_offset * d.tileSize := by ring
  have e3 : (d.localNrTiles + d.local_tile_offset) * d.tileSize =
    d.localNrTiles * d.tileSize + d.local_tile_offset * d.tileSize := by ring
  have e4 : (d.local_nr_blocks - 1) * d.blockSize =
    (d.local_nr_blocks - 1) * d.tiles_per_block * d.tileSize := by rw [w.block_eq]; ring
  have e5 : d.local_nr_blocks * d.blockSize =
    d.local_nr_blocks * d.tiles_per_block * d.tileSize := by rw [w.block_eq]; ring
  have e6 : d.tiles_per_block * d.tileSize = d.blockSize := w.block_eq.symm
  refine ⟨by omega, by omega, by omega, by omega⟩

theorem Dist1.WF.Q_step {d : Dist1} (w : d.WF) (hN : 0 < d.localNrTiles) {b : Int} (hb : 0 ≤ b)
    (hbB : b < d.local_nr_blocks) :
    d.Q (b + 1) = d.Q b + d.single_tile_per_block.local_tile_size_of b := by
  obtain ⟨a1, a2, a3, a4⟩ := w.Q_bounds hN
  unfold Dist1.local_tile_size_of
  rw [w.helper.2]
  exact blkQ_step a1 a2 a3 a4 hb hbB

theorem Dist1.WF.F_range {d : Dist1} (w : d.WF) (hN : 0 < d.localNrTiles) {b : Int} (hb : 0 ≤ b)
    (hbB : b < d.local_nr_blocks) :
    0 ≤ d.F b ∧ d.F b < d.F (b + 1) ∧ d.F (b + 1) ≤ d.localNrTiles := by
  obtain ⟨a1, a2, a3, a4, a5⟩ := w.blockNr hN
  unfold Dist1.F blkQ
  have hT := w.tpb_pos
  have e1 : (b + 1) * d.tiles_per_block = b * d.tiles_per_block + d.tiles_per_block := by ring
  have m1 : b = 0 ∨ d.tiles_per_block ≤ b * d.tiles_per_block := by
    by_cases h : b = 0
    · exact Or.inl h
    · right
      have := Int.mul_le_mul_of_nonneg_right (show 1 ≤ b by omega) (Int.le_of_lt hT)
      omega
  have m2 : b + 1 = d.local_nr_blocks ∨
      (b + 1) * d.tiles_per_block ≤ (d.local_nr_blocks - 1) * d.tiles_per_block := by
    by_cases h : b + 1 = d.local_nr_blocks
    · exact Or.inl h
    · exact Or.inr (Int.mul_le_mul_of_nonneg_right (by omega) (Int.le_of_lt hT))
  have e2 : b + 1 = d.local_nr_blocks →
      (d.local_nr_blocks - 1) * d.tiles_per_block = b * d.tiles_per_block := by
    intro h; rw [← h]; ring
  have e3 : b = 0 → b * d.tiles_per_block = 0 := by intro h; rw [h]; ring
  split_ifs <;> omega

theorem Dist1.WF.P_F {d : Dist1} (w : d.WF) (hN : 0 < d.localNrTiles) {b : Int} (hb : 0 ≤ b)
    (hbB : b ≤ d.local_nr_blocks) : d.P (d.F b) = d.Q b := by
  obtain ⟨a1, a2, a3, a4, a5⟩ := w.blockNr hN
  by_cases h0 : b = 0
  · subst h0
    have f0 : d.F 0 = 0 := by simp [Dist1.F, blkQ]
    have q0 : d.Q 0 = 0 := by simp [Dist1.Q, blkQ]
    rw [f0, q0, Dist1.P, if_neg (by omega)]
    have := (w.E_bounds (t := 0) (by omega) hN).2.2.2.1
    simpa using this
  by_cases hB : b = d.local_nr_blocks
  · have f0 : d.F b = d.localNrTiles := by unfold Dist1.F blkQ; rw [if_neg h0, if_pos hB]
    have q0 : d.Q b = d.localSize := by unfold Dist1.Q blkQ; rw [if_neg h0, if_pos hB]
    rw [f0, q0, Dist1.P, if_pos rfl]
  · have f0 : d.F b = b * d.tiles_per_block - d.local_tile_offset := by
      unfold Dist1.F blkQ; rw [if_neg h0, if_neg hB]
    have q0 : d.Q b = b * d.blockSize -
        (d.local_tile_offset * d.tileSize + d.local_tile_element_offset) := by
      unfold Dist1.Q blkQ; rw [if_neg h0, if_neg hB]
    have hr := w.F_range hN (b := b) hb (by omega)
    have hr2 := w.F_range hN (b := b - 1) (by omega) (by omega)
    rw [show b - 1 + 1 = b by ring] at hr2
    rw [Dist1.P, if_neg (by omega), (w.E_bounds hr.1 (by omega)).2.2.2.1, if_pos (by omega), f0, q0,
      w.block_eq]
    ring

/-- the inner loop emits the tiles of one block -/
theorem Dist1.WF.inner {d : Dist1} (w : d.WF) (hN : 0 < d.localNrTiles) {b : Int} (hb : 0 ≤ b)
    (hbB : b < d.local_nr_blocks) :
    ∀ (n : Nat) (i : Int), d.F b ≤ i → d.F (b + 1) = i + n →
      blockInner d b (d.single_tile_per_block.local_tile_size_of b) i (d.P i - d.Q b) =
        some ((List.range n).map (fun k : Nat => (⟨b, i + k, d.E (i + k) - d.Q b,
          d.local_tile_size_of (i + k), d.single_tile_per_block.local_tile_size_of b⟩ : BlockEntry)),
          d.F (b + 1)) := by
  intro n
  induction n with
  | zero =>
    intro i h1 h2
    have hi : d.F (b + 1) = i := by simpa using h2
    have hP := w.P_F hN (b := b + 1) (by omega) (by omega)
    rw [hi] at hP
    rw [blockInner, dif_neg (by have := w.Q_step hN hb hbB; omega)]
    simp [hi]
  | succ n ih =>
    intro i h1 h2
    have hr := w.F_range hN hb hbB
    have hiN : i < d.localNrTiles := by push_cast at h2; omega
    have hi0 : 0 ≤ i := by omega
    obtain ⟨e1, e2, e3, e4, e5⟩ := w.E_bounds hi0 hiN
    have hPi : d.P i = d.E i := by rw [Dist1.P, if_neg (by omega)]
    have hPi1 : d.P (i + 1) = d.E i + d.local_tile_size_of i := by
      rw [Dist1.P]; split_ifs at e5 ⊢ <;> omega
    -- position of the end of the block is after this tile
    have hlt : d.P i < d.Q (b + 1) := by
      rw [← w.P_F hN (b := b + 1) (by omega) (by omega), h2]
      have mono : ∀ k : Nat, i + k ≤ d.localNrTiles → d.P i + k ≤ d.P (i + k) := by
        intro k
        induction k with
        | zero => intro _; simp
        | succ k ihk =>
          intro hk
          push_cast at hk ⊢
          have := ihk (by omega)
          obtain ⟨_, f2, _, _, f5⟩ := w.E_bounds (t := i + k) (by omega) (by omega)
          have p1 : d.P (i + k) = d.E (i + k) := by rw [Dist1.P, if_neg (by omega)]
          have p2 : d.P (i + (k + 1)) = d.E (i + k) + d.local_tile_size_of (i + k) := by
            rw [show i + ((k:Int) + 1) = i + k + 1 by ring, Dist1.P]
            split_ifs at f5 ⊢ <;> omega
          omega
      have := mono (n + 1) (by omega)
      omega
    have hst := w.Q_step hN hb hbB
    rw [blockInner, dif_pos (by omega), dif_pos (by omega)]
    have := ih (i + 1) (by omega) (by push_cast at h2; omega)
    rw [hPi1] at this
    rw [hPi, show d.E i - d.Q b + d.local_tile_size_of i = d.E i + d.local_tile_size_of i - d.Q b by ring,
      this]
    simp only [Option.map_some, List.range_succ_eq_map, List.map_cons, List.map_map]
    congr 3
    · simp
    · apply List.map_congr_left
      intro k _
      simp only [Function.comp]
      push_cast
      rw [show i + 1 + (k : Int) = i + (k + 1) by ring]

/-- Entries of the block loops. -/
structure BlockEntryOK (d : Dist1) (t : Int) (e : BlockEntry) : Prop where
  tile : e.tile = t
  bl : 0 ≤ e.bl ∧ e.bl < d.local_nr_blocks
  el : e.el = d.E t - d.Q e.bl
  sz : e.sz = d.local_tile_size_of t
  bsz : e.bsz = d.single_tile_per_block.local_tile_size_of e.bl
  el_nonneg : 0 ≤ e.el
  fits : e.el + e.sz ≤ e.bsz

theorem Dist1.WF.P_mono {d : Dist1} (w : d.WF) {i j : Int} (h0 : 0 ≤ i) (hij : i ≤ j)
    (hj : j ≤ d.localNrTiles) : d.P i ≤ d.P j := by
  obtain ⟨k, rfl⟩ : ∃ k : Nat, j = i + k := ⟨(j - i).toNat, by omega⟩
  induction k with
  | zero => simp
  | succ k ihk =>
    push_cast at hj hij ⊢
    have := ihk (by omega) (by omega)
    obtain ⟨_, f2, _, _, f5⟩ := w.E_bounds (t := i + k) (by omega) (by omega)
    have p1 : d.P (i + k) = d.E (i + k) := by rw [Dist1.P, if_neg (by omega)]
    have p2 : d.P (i + (k + 1)) = d.E (i + k) + d.local_tile_size_of (i + k) := by
      rw [show i + ((k:Int) + 1) = i + k + 1 by ring, Dist1.P]
      split_ifs at f5 ⊢ <;> omega
    omega

theorem Dist1.WF.outer {d : Dist1} (w : d.WF) (hN : 0 < d.localNrTiles) :
    ∀ (n : Nat) (b : Int), 0 ≤ b → b + n = d.local_nr_blocks →
      ∃ l, blockOuter d d.single_tile_per_block n b (d.F b) = some l ∧
        (l.length : Int) = d.localNrTiles - d.F b ∧
        ∀ (k : Nat) (e : BlockEntry), l[k]? = some e → BlockEntryOK d (d.F b + k) e := by
  have hB := w.blockNr hN
  intro n
  induction n with
  | zero =>
    intro b hb hbn
    have hbn : b = d.local_nr_blocks := by simpa using hbn
    refine ⟨[], rfl, ?_, by simp⟩
    have : d.F b = d.localNrTiles := by
      unfold Dist1.F blkQ; rw [if_neg (by omega), if_pos hbn]
    simp [this]
  | succ n ih =>
    intro b hb hbn
    push_cast at hbn
    have hr := w.F_range hN hb (by omega)
    have hin := w.inner hN hb (by omega) (d.F (b + 1) - d.F b).toNat (d.F b) (by omega) (by omega)
    rw [w.P_F hN hb (by omega), Int.sub_self] at hin
    obtain ⟨l, hl, hlen, hok⟩ := ih (b + 1) (by omega) (by omega)
    have hQ := w.Q_step hN hb (by omega)
    refine ⟨_, by rw [blockOuter, hin, Option.bind_some, hl]; rfl, ?_, ?_⟩
    · simp only [List.length_append, List.length_map, List.length_range]
      push_cast
      omega
    · intro k e he
      by_cases hk : k < (d.F (b + 1) - d.F b).toNat
      · rw [List.getElem?_append_left (by simpa using hk)] at he
        simp only [List.getElem?_map, List.getElem?_range hk, Option.map_some, Option.some.injEq] at he
        subst he
        have h0 : 0 ≤ d.F b + k := by omega
        have h1 : d.F b + k < d.localNrTiles := by omega
        obtain ⟨e1, e2, e3, e4, e5⟩ := w.E_bounds h0 h1
        have p0 := w.P_mono (i := d.F b) (j := d.F b + k) hr.1 (by omega) (by omega)
        have p1 := w.P_mono (i := d.F b + k + 1) (j := d.F (b + 1)) (by omega) (by omega) hr.2.2
        rw [w.P_F hN hb (by omega)] at p0
        rw [w.P_F hN (b := b + 1) (by omega) (by omega)] at p1
        have q0 : d.P (d.F b + k) = d.E (d.F b + k) := by rw [Dist1.P, if_neg (by omega)]
        have q1 : d.P (d.F b + k + 1) = d.E (d.F b + k) + d.local_tile_size_of (d.F b + k) := by
          rw [Dist1.P]; split_ifs at e5 ⊢ <;> omega
        exact ⟨rfl, ⟨hb, by simp only; omega⟩, rfl, rfl, rfl, by simp only; omega, by simp only; omega⟩
      · rw [List.getElem?_append_right (by simpa using hk)] at he
        simp only [List.length_map, List.length_range] at he
        have := hok _ e he
        rw [show d.F (b + 1) + ((k - (d.F (b + 1) - d.F b).toNat : Nat) : Int) = d.F b + k by omega]
          at this
        exact this

theorem Dist1.WF.blockEntries {d : Dist1} (w : d.WF) (hN : 0 < d.localNrTiles) :
    ∃ l, DLAF.blockEntries d = some l ∧ (l.length : Int) = d.localNrTiles ∧
      ∀ (k : Nat) (e : BlockEntry), l[k]? = some e → BlockEntryOK d k e := by
  have hB := w.blockNr hN
  obtain ⟨l, h1, h2, h3⟩ := w.outer hN d.local_nr_blocks.toNat 0 (by omega) (by omega)
  have f0 : d.F 0 = 0 := by simp [Dist1.F, blkQ]
  rw [f0] at h1 h2 h3
  refine ⟨l, ?_, by omega, by simpa using h3⟩
  unfold DLAF.blockEntries
  simp only
  rw [w.helper.1]
  exact h1

end DLAF
