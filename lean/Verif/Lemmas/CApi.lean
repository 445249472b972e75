import Verif.Model.CApi
import Verif.Spec.CApi
import Verif.Lemmas.DistBtProps
import Verif.Lemmas.CutTiles
import Verif.Props.Scalapack
/- Lemmas for C62: matrices on the user's buffers. -/
namespace DLAF
variable {K : Type*}

section
variable {p q : Params} {n nb : Nat} {ld : Int} {mem : MatrixMem}

theorem Ax.E {p : Params} {n nb : Nat} (h : Ax p n nb) {i : Int} (h0 : 0 ≤ i) (h1 : i < p.dist.localNrTiles) : p.dist.E i = i * nb := by
  have e1 : p.dist.local_tile_element_offset = 0 := by
    have : p.dist.global_tile_element_offset = 0 := by rw [h.plain.valid.gteo_eq, h.plain.offset, Int.zero_emod]
    unfold Dist1.local_tile_element_offset
    rw [this, ite_self]
  have := (h.plain.valid.wf.E_bounds h0 h1).2.2.2.1
  rw [this, e1, ite_self, Int.sub_zero]
  show i * p.tile = _
  rw [h.tile]

/-- The tile `(i, j)` of a matrix on a buffer. -/
theorem tile_at (hp : Ax p n nb) (hq : Ax q n nb) (hld : 1 ≤ ld) (hm : setUpPreallocated (dist2 p q) ld = some mem) {i j : Int}
    (i0 : 0 ≤ i) (i1 : i < p.dist.localNrTiles) (j0 : 0 ≤ j) (j1 : j < q.dist.localNrTiles) :
    ∃ t : Tile, mem.tiles[(tile_linear_index (dist2 p q) i j).toNat]? = some t ∧
      t.rows.toNat = min nb (n - p.gn i * nb) ∧ t.cols.toNat = min nb (n - q.gn j * nb) ∧
      ∀ x y : Nat, (t.addr x y).2 = (i * nb + x) + (j * nb + y) * ld := by
  unfold setUpPreallocated at hm
  simp only [Option.bind_eq_some_iff, Option.map_eq_some_iff] at hm
  obtain ⟨sz, hn, ts, hts, rfl⟩ := hm
  have hg := mapOpt_getElem? hts (tile_linear_index (dist2 p q) i j).toNat
  rw [localTiles_getElem? (dist2 p q) i0 i1 j0 j1, Option.bind_some] at hg
  have hlen : (tile_linear_index (dist2 p q) i j).toNat < ts.length := by
    rw [mapOpt_length hts]
    exact (List.getElem?_eq_some_iff.1 (localTiles_getElem? (dist2 p q) i0 i1 j0 j1)).1
  have hsome : ts[(tile_linear_index (dist2 p q) i j).toNat]? = some ts[(tile_linear_index (dist2 p q) i j).toNat] := List.getElem?_eq_getElem hlen
  refine ⟨_, hsome, ?_⟩
  rw [hsome] at hg
  have hf := hg.symm
  generalize ts[(tile_linear_index (dist2 p q) i j).toNat] = t at hf
  unfold colMajorTile at hf
  simp only [Option.bind_eq_some_iff] at hf
  obtain ⟨v, hv, ht⟩ := hf
  simp only [show (dist2 p q).row = p.dist from rfl, show (dist2 p q).col = q.dist from rfl,
    Int.toNat_of_nonneg i0, Int.toNat_of_nonneg j0] at hv ht
  have b1 := hp.plain.valid.wf.E_bounds i0 i1
  have b2 := hq.plain.valid.wf.E_bounds j0 j1
  have := MemView.sub_eq hv (min_tile_mem_pos b1.2.1 b2.2.1 hld).2
  have e1 : p.dist.local_element_from_local_tile_and_tile_element i 0 = i * nb := hp.E i0 i1
  have e2 : q.dist.local_element_from_local_tile_and_tile_element j 0 = j * nb := hq.E j0 j1
  have s1 : p.dist.local_tile_size_of i = ((min nb (n - p.gn i * nb) : Nat) : Int) := by
    rw [hp.plain.valid.wf.local_tsz_eq i0 i1]; exact hp.sz i0 i1
  have s2 : q.dist.local_tile_size_of j = ((min nb (n - q.gn j * nb) : Nat) : Int) := by
    rw [hq.plain.valid.wf.local_tsz_eq j0 j1]; exact hq.sz j0 j1
  rw [Tile.create_eq ht]
  refine ⟨by show (p.dist.local_tile_size_of i).toNat = _; rw [s1, Int.toNat_natCast], by show (q.dist.local_tile_size_of j).toNat = _; rw [s2, Int.toNat_natCast], fun x y => ?_⟩
  simp only [Tile.addr, Tile.linearIndex, this.2, e1, e2]
  ring

theorem loadTile_at [Zero K] (hp : Ax p n nb) (hq : Ax q n nb) (hld : 1 ≤ ld) (hm : setUpPreallocated (dist2 p q) ld = some mem) {i j : Int}
    (i0 : 0 ≤ i) (i1 : i < p.dist.localNrTiles) (j0 : 0 ≤ j) (j1 : j < q.dist.localNrTiles) (buf : Int → K) :
    (loadTile mem (dist2 p q) buf ⟨i, j⟩).rows = min nb (n - p.gn i * nb) ∧ (loadTile mem (dist2 p q) buf ⟨i, j⟩).cols = min nb (n - q.gn j * nb) ∧
      ∀ x y : Nat, (loadTile mem (dist2 p q) buf ⟨i, j⟩).e x y = buf ((i * nb + x) + (j * nb + y) * ld) := by
  obtain ⟨t, h1, h2, h3, h4⟩ := tile_at hp hq hld hm i0 i1 j0 j1
  unfold loadTile
  dsimp only
  rw [h1]
  exact ⟨h2, h3, fun x y => by dsimp only; rw [h4]⟩

theorem mem_tileWrites (hp : Ax p n nb) (hq : Ax q n nb) (hld : 1 ≤ ld) (hm : setUpPreallocated (dist2 p q) ld = some mem) (mat : Coord2 → Blk K) (w : Int × K) :
    w ∈ tileWrites mem (dist2 p q) mat ↔ ∃ i j : Int, (0 ≤ i ∧ i < p.dist.localNrTiles) ∧ (0 ≤ j ∧ j < q.dist.localNrTiles) ∧
      ∃ x < min nb (n - p.gn i * nb), ∃ y < min nb (n - q.gn j * nb), w = ((i * nb + x) + (j * nb + y) * ld, (mat ⟨i, j⟩).e x y) := by
  unfold tileWrites localTiles
  simp only [List.mem_flatMap, List.mem_map, List.mem_range]
  constructor
  · rintro ⟨l, ⟨j, hj, i, hi, rfl⟩, h⟩
    have hi' : (i : Int) < p.dist.localNrTiles := by have : i < p.dist.localNrTiles.toNat := hi; omega
    have hj' : (j : Int) < q.dist.localNrTiles := by have : j < q.dist.localNrTiles.toNat := hj; omega
    obtain ⟨t, h1, h2, h3, h4⟩ := tile_at hp hq hld hm (Int.natCast_nonneg i) hi' (Int.natCast_nonneg j) hj'
    dsimp only at h
    rw [h1] at h
    simp only [List.mem_flatMap, List.mem_map, List.mem_range, h2, h3, h4] at h
    obtain ⟨y, hy, x, hx, rfl⟩ := h
    exact ⟨i, j, ⟨by omega, hi'⟩, ⟨by omega, hj'⟩, x, hx, y, hy, rfl⟩
  · rintro ⟨i, j, ⟨i0, i1⟩, ⟨j0, j1⟩, x, hx, y, hy, rfl⟩
    obtain ⟨t, h1, h2, h3, h4⟩ := tile_at hp hq hld hm i0 i1 j0 j1
    refine ⟨(i.toNat, j.toNat), ⟨j.toNat, by show _ < q.dist.localNrTiles.toNat; omega, i.toNat, by show _ < p.dist.localNrTiles.toNat; omega, rfl⟩, ?_⟩
    dsimp only
    rw [Int.toNat_of_nonneg i0, Int.toNat_of_nonneg j0, h1]
    simp only [List.mem_flatMap, List.mem_map, List.mem_range, h2, h3, h4]
    exact ⟨y, hy, x, hx, rfl⟩

end

theorem foldl_set1_ne {a : Int} : ∀ (ws : List (Int × K)) (b : Int → K), (∀ w ∈ ws, w.1 ≠ a) → (ws.foldl (fun b w => set1 b w.1 w.2) b) a = b a
  | [], _, _ => rfl
  | w :: ws, b, h => by
    rw [List.foldl_cons, foldl_set1_ne ws _ fun v hv => h v (by simp [hv])]
    have := h w (by simp)
    simp [set1, Ne.symm this]

theorem foldl_set1_eq {a : Int} {v : K} : ∀ (ws : List (Int × K)) (b : Int → K), (∀ w ∈ ws, w.1 = a → w.2 = v) → (a, v) ∈ ws →
    (ws.foldl (fun b w => set1 b w.1 w.2) b) a = v
  | w :: ws, b, h, hm => by
    rw [List.foldl_cons]
    by_cases hin : (a, v) ∈ ws
    · exact foldl_set1_eq ws _ (fun u hu => h u (by simp [hu])) hin
    · have hw : w = (a, v) := by
        rcases List.mem_cons.1 hm with e | e
        · exact e.symm
        · exact absurd e hin
      subst hw
      rw [foldl_set1_ne]
      · simp [set1]
      · intro u hu e
        have : u.2 = v := h u (by simp [hu]) e
        exact hin (by rw [show (a, v) = u from Prod.ext e.symm this.symm]; exact hu)

end DLAF

namespace DLAF
variable {K : Type*}

/-- On its owner, the element `x` is at the ScaLAPACK local index. -/
theorem Ax.indxg2l {p : Params} {n nb : Nat} (h : Ax p n nb) {np src x : Nat} (hg : p.grid = np) (hs : p.src = src) (hx : x < n)
    (hr : p.rank = indxg2p x nb src np) :
    p.dist.local_tile_from_global_tile ((x / nb : Nat) : Int) * nb + ((x % nb : Nat) : Int) = indxg2l x nb np := by
  have hb : p.block = nb := by rw [h.plain.block, h.tile]
  have ho := C12_owner h.plain.valid h.plain.offset (i := x) hb hg hs
  have hl := C12_local_index h.plain.valid h.plain.offset (i := x) hb hg hs hr
  unfold Dist1.rank_global_element at ho
  rw [h.gt] at ho
  have hlt : x / nb < (n + nb - 1) / nb := by
    rw [h.lt_nt]
    exact lt_of_le_of_lt (Nat.div_mul_le_self x nb) hx
  have hbd := h.plain.lc_bounds (t := ((x / nb : Nat) : Int)) (Int.natCast_nonneg _) (by rw [h.nt]; exact_mod_cast hlt) (by rw [ho, hr])
  unfold Params.lc at hbd
  rw [← hl]
  unfold Dist1.local_element_from_global_element Dist1.local_tile_from_global_element
  rw [h.gt]
  dsimp only
  rw [if_neg (by omega), h.te]
  have e1 : p.dist.local_tile_element_offset = 0 := by
    have : p.dist.global_tile_element_offset = 0 := by rw [h.plain.valid.gteo_eq, h.plain.offset, Int.zero_emod]
    unfold Dist1.local_tile_element_offset
    rw [this, ite_self]
  unfold Dist1.local_element_from_local_tile_and_tile_element util.element_from_tile_and_tile_element
  rw [e1, show p.dist.tileSize = nb from h.tile]
  simp

theorem Ax.indxg2p {p : Params} {n nb : Nat} (h : Ax p n nb) {np src : Nat} (hg : p.grid = np) (hs : p.src = src) (x : Nat) :
    p.dist.rank_global_tile ((x / nb : Nat) : Int) = indxg2p x nb src np := by
  have ho := C12_owner h.plain.valid h.plain.offset (i := x) (by rw [h.plain.block, h.tile] : p.block = nb) hg hs
  unfold Dist1.rank_global_element at ho
  rw [h.gt] at ho
  exact ho

namespace ScaMat
variable (S : ScaMat)

/-- The distribution of the matrix. -/
def params : Params2 := ⟨capiParams S.n S.mb S.npr 0 S.rsrc, capiParams S.n S.mb S.npc 0 S.csrc⟩

variable {S} (hS : S.Legal)
include hS

theorem axRow : Ax S.params.row S.n S.mb :=
  ⟨⟨⟨capiParams_valid hS.1 (by have := hS.2.1; omega) hS.2.1, rfl⟩, rfl⟩, rfl, rfl⟩
theorem axCol : Ax S.params.col S.n S.mb :=
  ⟨⟨⟨capiParams_valid hS.1 (by have := hS.2.2; omega) hS.2.2, rfl⟩, rfl⟩, rfl, rfl⟩

theorem square : SquareDist S.params := ⟨(axRow hS).plain, (axCol hS).plain, rfl, rfl⟩

omit hS in
theorem mem_ranks {r : Coord2} : r ∈ S.params.ranks ↔ S.OnGrid r := by
  rw [Params2.mem_ranks]
  constructor
  · intro h
    exact ⟨h .Row, h .Col⟩
  · rintro ⟨h1, h2⟩ c
    cases c
    · exact h1
    · exact h2

theorem owner_onGrid (x y : Nat) : S.owner x y ∈ S.params.ranks := by
  rw [mem_ranks]
  unfold owner OnGrid _root_.DLAF.indxg2p
  have h1 := Nat.mod_lt (S.rsrc + x / S.mb) (show 0 < S.npr by have := hS.2.1; omega)
  have h2 := Nat.mod_lt (S.csrc + y / S.mb) (show 0 < S.npc by have := hS.2.2; omega)
  dsimp only
  omega

theorem ax1 {r : Coord2} (hr : r ∈ S.params.ranks) : Ax (S.params.row.onRank r.row) S.n S.mb := by
  have := Params2.mem_ranks.1 hr .Row
  exact (axRow hS).onRank this.1 this.2
theorem ax2 {r : Coord2} (hr : r ∈ S.params.ranks) : Ax (S.params.col.onRank r.col) S.n S.mb := by
  have := Params2.mem_ranks.1 hr .Col
  exact (axCol hS).onRank this.1 this.2

theorem nt_eq : S.params.nt = (S.n + S.mb - 1) / S.mb := by
  unfold Params2.nt
  rw [(axRow hS).nt, Int.toNat_natCast]

theorem sizes_eq : S.params.row.tileSizes = cutSize S.mb S.n := by
  funext i
  rw [(axRow hS).tileSizes]
  rfl

theorem start_eq (i : Nat) : tileStart S.params.row.tileSizes i = min (i * S.mb) S.n := by
  rw [sizes_eq hS, tileStart_cut]

theorem start_all : tileStart S.params.row.tileSizes S.params.nt = S.n := by
  rw [sizes_eq hS, nt_eq hS]
  exact tileStart_cut_all S.n hS.1

/-- The matrix on the buffer is set up. -/
theorem setUp {r : Coord2} (hr : r ∈ S.params.ranks) {lld : Nat} (hl : S.LldOk r lld) : ∃ mem, setUpPreallocated (S.params.on r) lld = some mem := by
  have a1 := ax1 hS hr
  have a2 := ax2 hS hr
  have hg := mem_ranks.1 hr
  have hrow := hg.1
  refine colMajor_accepts a1.plain.valid a2.plain.valid (by rw [a1.plain.offset]; simp) (by rw [a2.plain.offset]; simp) ?_
  rw [C12_numroc a1.plain.valid a1.plain.offset (n := S.n) (nb := S.mb) (np := S.npr) (iproc := r.row.toNat) (isrc := S.rsrc) rfl rfl rfl rfl
    (show r.row = _ by omega)]
  unfold LldOk at hl
  omega

/-- The element `(x, y)` in the local tiles of its owner. -/
theorem elem_pos {x y : Nat} (hx : x < S.n) (hy : y < S.n) {r : Coord2} (hr : r = S.owner x y) (lld : Nat) :
    ((S.params.at' .Row r).dist.local_tile_from_global_tile ((x / S.mb : Nat) : Int) * S.mb + ((x % S.mb : Nat) : Int)) +
      ((S.params.at' .Col r).dist.local_tile_from_global_tile ((y / S.mb : Nat) : Int) * S.mb + ((y % S.mb : Nat) : Int)) * lld = S.pos lld x y := by
  have hg : r ∈ S.params.ranks := hr ▸ owner_onGrid hS x y
  have e1 : r.row = DLAF.indxg2p x S.mb S.rsrc S.npr := by rw [hr]; rfl
  have e2 : r.col = DLAF.indxg2p y S.mb S.csrc S.npc := by rw [hr]; rfl
  unfold pos
  rw [← (ax1 hS hg).indxg2l (np := S.npr) (src := S.rsrc) rfl rfl hx e1, ← (ax2 hS hg).indxg2l (np := S.npc) (src := S.csrc) rfl rfl hy e2]
  rfl

section load
variable [Zero K] (mem : Coord2 → MatrixMem) (lld : Coord2 → Nat) (buf : Coord2 → Int → K)

omit hS in
variable (S) in
/-- The global tiles, each taken from its owner. -/
def tiles (z : Nat × Nat) : Blk K :=
  let r : Coord2 := ⟨S.params.row.dist.rank_global_tile z.1, S.params.col.dist.rank_global_tile z.2⟩
  loadTile (mem r) (S.params.on r) (buf r)
    ⟨(S.params.at' .Row r).dist.local_tile_from_global_tile z.1, (S.params.at' .Col r).dist.local_tile_from_global_tile z.2⟩

omit hS in
theorem load_holds (r : Coord2) : HoldsTiles S.params S.params.nt S.params.nt r (S.tiles mem buf) (loadTile (mem r) (S.params.on r) (buf r)) := by
  intro i _ j _ o1 o2
  unfold tiles
  dsimp only
  rw [o1, o2]

variable (hm : ∀ r ∈ S.params.ranks, setUpPreallocated (S.params.on r) (lld r) = some (mem r)) (hl : ∀ r ∈ S.params.ranks, 1 ≤ lld r)
include hm hl

theorem tiles_at {i j : Nat} (hi : i < S.params.nt) (hj : j < S.params.nt) :
    (S.tiles mem buf (i, j)).rows = S.params.row.tileSizes i ∧ (S.tiles mem buf (i, j)).cols = S.params.row.tileSizes j ∧
      ∀ a < S.params.row.tileSizes i, ∀ b < S.params.row.tileSizes j,
        (S.tiles mem buf (i, j)).e a b = S.elem lld buf (tileStart S.params.row.tileSizes i + a) (tileStart S.params.row.tileSizes j + b) := by
  have hmb := hS.1
  have q1 : i * S.mb < S.n := by rw [← (axRow hS).lt_nt, ← nt_eq hS]; exact hi
  have q2 : j * S.mb < S.n := by rw [← (axRow hS).lt_nt, ← nt_eq hS]; exact hj
  have o1 : S.params.row.dist.rank_global_tile ((i : Nat) : Int) = indxg2p (i * S.mb) S.mb S.rsrc S.npr := by
    rw [← (axRow hS).indxg2p (np := S.npr) (src := S.rsrc) rfl rfl, Nat.mul_div_cancel _ hmb]
  have o2 : S.params.col.dist.rank_global_tile ((j : Nat) : Int) = indxg2p (j * S.mb) S.mb S.csrc S.npc := by
    rw [← (axCol hS).indxg2p (np := S.npc) (src := S.csrc) rfl rfl, Nat.mul_div_cancel _ hmb]
  have hr : S.owner (i * S.mb) (j * S.mb) ∈ S.params.ranks := owner_onGrid hS _ _
  have a1 := ax1 hS hr
  have a2 := ax2 hS hr
  have n1 : ((i : Nat) : Int) < (S.params.row.onRank (S.owner (i * S.mb) (j * S.mb)).row).dist.nrTiles := by
    rw [a1.nt]; exact_mod_cast (by rw [← nt_eq hS]; exact hi)
  have n2 : ((j : Nat) : Int) < (S.params.col.onRank (S.owner (i * S.mb) (j * S.mb)).col).dist.nrTiles := by
    rw [a2.nt]; exact_mod_cast (by rw [← nt_eq hS]; exact hj)
  have l1 := a1.plain.lc_bounds (t := ((i : Nat) : Int)) (by omega) n1 (by exact o1)
  have l2 := a2.plain.lc_bounds (t := ((j : Nat) : Int)) (by omega) n2 (by exact o2)
  have g1 : (S.params.row.onRank (S.owner (i * S.mb) (j * S.mb)).row).gn ((S.params.row.onRank (S.owner (i * S.mb) (j * S.mb)).row).lc i) = i := by
    unfold Params.gn
    rw [a1.plain.gl_lc (by omega) (by exact o1), Int.toNat_natCast]
  have g2 : (S.params.col.onRank (S.owner (i * S.mb) (j * S.mb)).col).gn ((S.params.col.onRank (S.owner (i * S.mb) (j * S.mb)).col).lc j) = j := by
    unfold Params.gn
    rw [a2.plain.gl_lc (by omega) (by exact o2), Int.toNat_natCast]
  have hre : (⟨S.params.row.dist.rank_global_tile ((i : Nat) : Int), S.params.col.dist.rank_global_tile ((j : Nat) : Int)⟩ : Coord2) = S.owner (i * S.mb) (j * S.mb) := by
    rw [o1, o2]; rfl
  obtain ⟨t1, t2, t3⟩ := loadTile_at a1 a2 (ld := lld (S.owner (i * S.mb) (j * S.mb))) (by have := hl _ hr; omega) (hm _ hr) l1.1 l1.2 l2.1 l2.2 (buf (S.owner (i * S.mb) (j * S.mb)))
  rw [g1] at t1
  rw [g2] at t2
  have ht : S.tiles mem buf (i, j) = loadTile (mem (S.owner (i * S.mb) (j * S.mb))) (S.params.on (S.owner (i * S.mb) (j * S.mb))) (buf (S.owner (i * S.mb) (j * S.mb)))
      ⟨(S.params.row.onRank (S.owner (i * S.mb) (j * S.mb)).row).lc i, (S.params.col.onRank (S.owner (i * S.mb) (j * S.mb)).col).lc j⟩ := by
    unfold tiles
    dsimp only
    rw [hre]
    rfl
  rw [ht, sizes_eq hS]
  refine ⟨t1, t2, fun a ha b hb => ?_⟩
  have ha' : a < S.mb := lt_of_lt_of_le ha (Nat.min_le_left _ _)
  have hb' : b < S.mb := lt_of_lt_of_le hb (Nat.min_le_left _ _)
  have d1 : (i * S.mb + a) / S.mb = i := by rw [Nat.mul_comm, Nat.mul_add_div hmb, Nat.div_eq_of_lt ha', Nat.add_zero]
  have d2 : (j * S.mb + b) / S.mb = j := by rw [Nat.mul_comm, Nat.mul_add_div hmb, Nat.div_eq_of_lt hb', Nat.add_zero]
  have m1 : (i * S.mb + a) % S.mb = a := by rw [Nat.mul_comm, Nat.mul_add_mod, Nat.mod_eq_of_lt ha']
  have m2 : (j * S.mb + b) % S.mb = b := by rw [Nat.mul_comm, Nat.mul_add_mod, Nat.mod_eq_of_lt hb']
  have hx : i * S.mb + a < S.n := by have : a < min S.mb (S.n - i * S.mb) := ha; omega
  have hy : j * S.mb + b < S.n := by have : b < min S.mb (S.n - j * S.mb) := hb; omega
  have ho : S.owner (i * S.mb + a) (j * S.mb + b) = S.owner (i * S.mb) (j * S.mb) := by
    unfold owner DLAF.indxg2p
    rw [d1, d2, Nat.mul_div_cancel _ hmb, Nat.mul_div_cancel _ hmb]
  rw [tileStart_cut, tileStart_cut, Nat.min_eq_left (le_of_lt q1), Nat.min_eq_left (le_of_lt q2)]
  unfold elem
  rw [ho]
  have := elem_pos hS hx hy ho.symm (lld (S.owner (i * S.mb) (j * S.mb)))
  rw [d1, d2, m1, m2] at this
  rw [← this]
  exact t3 a b

end load

section store
variable {mem : MatrixMem} {lld : Nat} {r : Coord2} (hr : r ∈ S.params.ranks) (hl : 1 ≤ lld)
  (hm : setUpPreallocated (S.params.on r) lld = some mem) {mat : Coord2 → Blk K} {m : Tiles K} (hh : HoldsTiles S.params S.params.nt S.params.nt r m mat)
  {F : Nat → Nat → K} (hF : HoldsOn m S.params.row.tileSizes S.params.row.tileSizes S.params.nt S.params.nt F fun _ _ => True)
include hr hl hm hh hF

theorem write_iff (w : Int × K) : w ∈ tileWrites mem (S.params.on r) mat ↔ ∃ x < S.n, ∃ y < S.n, S.owner x y = r ∧ w = (S.pos lld x y, F x y) := by
  have hmb := hS.1
  have a1 := ax1 hS hr
  have a2 := ax2 hS hr
  rw [show S.params.on r = dist2 (S.params.row.onRank r.row) (S.params.col.onRank r.col) from rfl,
    mem_tileWrites a1 a2 (ld := lld) (by omega) hm]
  have key : ∀ t < S.params.nt, ∀ s < S.params.nt, S.params.row.dist.rank_global_tile (t : Nat) = r.row → S.params.col.dist.rank_global_tile (s : Nat) = r.col →
      ∀ a < min S.mb (S.n - t * S.mb), ∀ b < min S.mb (S.n - s * S.mb),
        S.owner (t * S.mb + a) (s * S.mb + b) = r ∧
        ((((S.params.row.onRank r.row).lc t * S.mb + a) + ((S.params.col.onRank r.col).lc s * S.mb + b) * lld,
          (mat ⟨(S.params.row.onRank r.row).lc t, (S.params.col.onRank r.col).lc s⟩).e a b) : Int × K) = (S.pos lld (t * S.mb + a) (s * S.mb + b), F (t * S.mb + a) (s * S.mb + b)) := by
    intro t ht s hs o1 o2 a ha b hb
    have q1 : t * S.mb < S.n := by rw [← (axRow hS).lt_nt, ← nt_eq hS]; exact ht
    have q2 : s * S.mb < S.n := by rw [← (axRow hS).lt_nt, ← nt_eq hS]; exact hs
    have ha' : a < S.mb := by omega
    have hb' : b < S.mb := by omega
    have d1 : (t * S.mb + a) / S.mb = t := by rw [Nat.mul_comm, Nat.mul_add_div hmb, Nat.div_eq_of_lt ha', Nat.add_zero]
    have d2 : (s * S.mb + b) / S.mb = s := by rw [Nat.mul_comm, Nat.mul_add_div hmb, Nat.div_eq_of_lt hb', Nat.add_zero]
    have m1 : (t * S.mb + a) % S.mb = a := by rw [Nat.mul_comm, Nat.mul_add_mod, Nat.mod_eq_of_lt ha']
    have m2 : (s * S.mb + b) % S.mb = b := by rw [Nat.mul_comm, Nat.mul_add_mod, Nat.mod_eq_of_lt hb']
    have ho : S.owner (t * S.mb + a) (s * S.mb + b) = r := by
      unfold owner
      rw [← (axRow hS).indxg2p (np := S.npr) (src := S.rsrc) rfl rfl, ← (axCol hS).indxg2p (np := S.npc) (src := S.csrc) rfl rfl, d1, d2, o1, o2]
    refine ⟨ho, ?_⟩
    have e := elem_pos hS (show t * S.mb + a < S.n by omega) (show s * S.mb + b < S.n by omega) ho.symm lld
    rw [d1, d2, m1, m2] at e
    have f := hF t ht s hs a (by rw [sizes_eq hS]; exact ha) b (by rw [sizes_eq hS]; exact hb) trivial
    rw [start_eq hS, start_eq hS, Nat.min_eq_left (le_of_lt q1), Nat.min_eq_left (le_of_lt q2)] at f
    have g : mat ⟨(S.params.row.onRank r.row).lc t, (S.params.col.onRank r.col).lc s⟩ = m (t, s) := hh t ht s hs o1 o2
    rw [g, f]
    exact Prod.ext e rfl
  constructor
  · rintro ⟨i, j, ⟨i0, i1⟩, ⟨j0, j1⟩, a, ha, b, hb, rfl⟩
    have c1 := a1.gn_cast i0
    have c2 := a2.gn_cast j0
    have t1 : (S.params.row.onRank r.row).gn i < S.params.nt := by
      rw [nt_eq hS, (axRow hS).lt_nt]; exact a1.gn_lt i0 i1
    have t2 : (S.params.col.onRank r.col).gn j < S.params.nt := by
      rw [nt_eq hS, (axRow hS).lt_nt]; exact a2.gn_lt j0 j1
    obtain ⟨k1, k2⟩ := key _ t1 _ t2 (by rw [c1]; exact a1.plain.gl_own i0) (by rw [c2]; exact a2.plain.gl_own j0) a ha b hb
    rw [c1, c2, a1.plain.lc_gl i0, a2.plain.lc_gl j0] at k2
    exact ⟨_, by omega, _, by omega, k1, k2⟩
  · rintro ⟨x, hx, y, hy, ho, rfl⟩
    have p1 : x / S.mb < S.params.nt := by
      rw [nt_eq hS, (axRow hS).lt_nt]; exact lt_of_le_of_lt (Nat.div_mul_le_self x S.mb) hx
    have p2 : y / S.mb < S.params.nt := by
      rw [nt_eq hS, (axRow hS).lt_nt]; exact lt_of_le_of_lt (Nat.div_mul_le_self y S.mb) hy
    have o1 : S.params.row.dist.rank_global_tile ((x / S.mb : Nat) : Int) = r.row := by
      rw [(axRow hS).indxg2p (np := S.npr) (src := S.rsrc) rfl rfl, ← ho]; rfl
    have o2 : S.params.col.dist.rank_global_tile ((y / S.mb : Nat) : Int) = r.col := by
      rw [(axCol hS).indxg2p (np := S.npc) (src := S.csrc) rfl rfl, ← ho]; rfl
    have e1 := Nat.div_add_mod x S.mb
    have e2 := Nat.div_add_mod y S.mb
    have e3 := Nat.mod_lt x hmb
    have e4 := Nat.mod_lt y hmb
    rw [Nat.mul_comm] at e1 e2
    have l1 := a1.plain.lc_bounds (t := ((x / S.mb : Nat) : Int)) (Int.natCast_nonneg _) (by rw [a1.nt]; exact_mod_cast (by rw [← nt_eq hS]; exact p1)) (by exact o1)
    have l2 := a2.plain.lc_bounds (t := ((y / S.mb : Nat) : Int)) (Int.natCast_nonneg _) (by rw [a2.nt]; exact_mod_cast (by rw [← nt_eq hS]; exact p2)) (by exact o2)
    have g1 : (S.params.row.onRank r.row).gn ((S.params.row.onRank r.row).lc ((x / S.mb : Nat) : Int)) = x / S.mb := by
      unfold Params.gn
      rw [a1.plain.gl_lc (Int.natCast_nonneg _) (by exact o1), Int.toNat_natCast]
    have g2 : (S.params.col.onRank r.col).gn ((S.params.col.onRank r.col).lc ((y / S.mb : Nat) : Int)) = y / S.mb := by
      unfold Params.gn
      rw [a2.plain.gl_lc (Int.natCast_nonneg _) (by exact o2), Int.toNat_natCast]
    obtain ⟨-, k2⟩ := key _ p1 _ p2 o1 o2 (x % S.mb) (by omega) (y % S.mb) (by omega)
    rw [e1, e2] at k2
    exact ⟨_, _, l1, l2, x % S.mb, by rw [g1]; omega, y % S.mb, by rw [g2]; omega, k2.symm⟩

theorem store_spec (buf : Int → K) (hinj : ∀ x < S.n, ∀ y < S.n, ∀ x' < S.n, ∀ y' < S.n, S.owner x y = r → S.owner x' y' = r → S.pos lld x y = S.pos lld x' y' →
      x = x' ∧ y = y') :
    (∀ x < S.n, ∀ y < S.n, S.owner x y = r → storeTiles mem (S.params.on r) mat buf (S.pos lld x y) = F x y) ∧
    ∀ a, (∀ x < S.n, ∀ y < S.n, S.owner x y = r → a ≠ S.pos lld x y) → storeTiles mem (S.params.on r) mat buf a = buf a := by
  have hw := write_iff hS hr hl hm hh hF
  unfold storeTiles
  constructor
  · intro x hx y hy ho
    refine foldl_set1_eq _ _ ?_ ((hw _).2 ⟨x, hx, y, hy, ho, rfl⟩)
    intro w h1 h2
    obtain ⟨x', hx', y', hy', ho', rfl⟩ := (hw w).1 h1
    obtain ⟨rfl, rfl⟩ := hinj x' hx' y' hy' x hx y hy ho' ho h2
    rfl
  · intro a ha
    refine foldl_set1_ne _ _ ?_
    intro w h1 h2
    obtain ⟨x', hx', y', hy', ho', rfl⟩ := (hw w).1 h1
    exact ha x' hx' y' hy' ho' h2.symm

end store
end ScaMat
end DLAF
