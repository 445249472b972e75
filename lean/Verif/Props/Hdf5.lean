import Verif.Lemmas.Hdf5
/- C28: writing a matrix to an HDF5 file and reading it back. -/
namespace DLAF
variable {E : Type}

/-- C28 (write): whatever distribution, memory layout and order of the stores of the processes, the dataset is the matrix.
`file_rank r`: the rank of process `r` in the communicator of the file. -/
theorem C28_write {P : Params2} (hP : P.Valid) {T : ElemType} (hT : 0 < T.comps) {mem : Coord2 → MatrixMem}
    (hmem : ∀ r ∈ P.ranks, Allocated (P.on r) (mem r)) {buf : Coord2 → ScalarAddr → E} {A : Int → Int → Int → E}
    (hA : StoresScalars P T.comps mem buf A) {has_mpio : Bool} {file_rank : Coord2 → Int}
    (hfile : has_mpio = true ∨ (P.row.grid = 1 ∧ P.col.grid = 1))
    (hlocal : P.row.grid = 1 ∧ P.col.grid = 1 → ∀ r ∈ P.ranks, file_rank r = 0) :
    ∃ parts : Coord2 → List (Int × E),
      (∀ r ∈ P.ranks, hdf5Write has_mpio (file_rank r) T (P.on r) (mem r) (buf r) =
        some (⟨P.col.size, P.row.size, T.comps⟩, parts r)) ∧
      ∀ ds : Dataset E, ds.dims = ⟨P.col.size, P.row.size, T.comps⟩ → WrittenBy ds P.ranks parts →
        IsMatrix ds P.row.size P.col.size T.comps A := by
  have hex : ∀ r : Coord2, ∃ l, r ∈ P.ranks →
      datasetMap T ⟨P.col.size, P.row.size, T.comps⟩ (P.on r) (mem r) = some l ∧
      ∀ u, u ∈ l ↔ ∃ i j c, OwnsScalar (P.row.onRank r.row) (P.col.onRank r.col) T.comps (mem r) u i j c := by
    intro r
    by_cases hr : r ∈ P.ranks
    · obtain ⟨⟨r0, r1⟩, s0, s1⟩ := Params2.mem_ranks_iff.1 hr
      obtain ⟨l, h1, h2⟩ := datasetMap_spec (hP.1.onRank r0 r1) (hP.2.onRank s0 s1) (hmem r hr) T hT
      exact ⟨l, fun _ => ⟨h1, h2⟩⟩
    · exact ⟨[], fun h => absurd h hr⟩
  choose l hl using hex
  refine ⟨fun r => (l r).map fun u => (u.1, buf r u.2), ?_, ?_⟩
  · intro r hr
    unfold hdf5Write
    have hg : ((decide ((P.on r).row.grid = 1) && decide ((P.on r).col.grid = 1)) = true) ↔
        (P.row.grid = 1 ∧ P.col.grid = 1) := by
      simp only [Bool.and_eq_true, decide_eq_true_eq]
      rfl
    dsimp only
    rw [if_pos]
    · rw [if_pos]
      · rw [show (⟨(P.on r).col.size, (P.on r).row.size, T.comps⟩ : Dim3) = ⟨P.col.size, P.row.size, T.comps⟩ from rfl,
          (hl r hr).1]
        rfl
      · by_cases hloc : P.row.grid = 1 ∧ P.col.grid = 1
        · rw [hlocal hloc r hr]; simp
        · rw [Bool.eq_false_iff.2 (fun h => hloc (hg.1 h))]; simp
    · rcases hfile with h | h
      · rw [h]; simp
      · rw [hg.2 h]; simp
  · rintro ds hd ⟨order, before, hperm, hdata⟩
    refine ⟨hd, ?_⟩
    intro i j c hi hj hc
    rw [hdata]
    apply storeAll_eq
    · intro u hu hux
      obtain ⟨r, hr, hu⟩ := List.mem_flatMap.1 (hperm.mem_iff.1 hu)
      obtain ⟨w, hw, rfl⟩ := List.mem_map.1 hu
      obtain ⟨i', j', c', o⟩ := ((hl r hr).2 w).1 hw
      obtain ⟨a, ha, rfl⟩ := o.addr
      dsimp only at hux ⊢
      obtain ⟨rfl, rfl, rfl⟩ := filePos_inj (cols := P.col.size) o.row o.comp hi hc hux
      obtain ⟨b, hb, hv⟩ := hA i' j' c' hi hj hc
      have e : (⟨P.row.owner i', P.col.owner j'⟩ : Coord2) = r := by
        cases r
        congr 1
        · exact o.rowOwner
        · exact o.colOwner
      rw [e] at hb hv
      obtain rfl : b = a := by
        have := hb.symm.trans ha
        simpa using this
      exact hv
    · left
      have hr : (⟨P.row.owner i, P.col.owner j⟩ : Coord2) ∈ P.ranks := by
        have g1 : 0 < P.row.grid := hP.1.2.2.2.2.1
        have g2 : 0 < P.col.grid := hP.2.2.2.2.2.1
        exact Params2.mem_ranks_iff.2 ⟨⟨Int.emod_nonneg _ (by omega), Int.emod_lt_of_pos _ g1⟩,
          Int.emod_nonneg _ (by omega), Int.emod_lt_of_pos _ g2⟩
      obtain ⟨a, ha, _⟩ := hA i j c hi hj hc
      refine ⟨((j * P.row.size + i) * T.comps + c, buf ⟨P.row.owner i, P.col.owner j⟩ (a.1, a.2 * T.comps + c)), ?_, rfl⟩
      refine hperm.mem_iff.2 (List.mem_flatMap.2 ⟨_, hr, List.mem_map.2 ⟨((j * P.row.size + i) * T.comps + c, (a.1, a.2 * T.comps + c)), ?_, rfl⟩⟩)
      exact ((hl _ hr).2 _).2 ⟨i, j, c, hi, hj, hc, rfl, rfl, a, ha, rfl⟩

/-- C28 (read): reading the dataset with any grid, block size, source rank and memory layout gives the matrix, on every
process. -/
theorem C28_read {Q : Params2} (hQ : Q.Valid) (ho : Q.row.offset = 0 ∧ Q.col.offset = 0)
    (hb : Q.row.tile = Q.row.block ∧ Q.col.tile = Q.col.block) {T : ElemType} (hT : 0 < T.comps) {ds : Dataset E}
    (hbase : ds.base = T.base) {A : Int → Int → Int → E} (hds : IsMatrix ds Q.row.size Q.col.size T.comps A)
    (heavy : Bool) (layout : AllocationLayout) {alignment : Int} (hal : 0 < alignment) {ld : LdSpec}
    (hld : ld = .compact ∨ ld = .padded) (before : Coord2 → ScalarAddr → E) :
    ∃ mem buf, (∀ r ∈ Q.ranks, hdf5Read heavy layout alignment ld T ds ⟨Q.row.block, Q.col.block⟩
        ⟨Q.row.grid, Q.col.grid⟩ r ⟨Q.row.src, Q.col.src⟩ (before r) = some (Q.on r, mem r, buf r)) ∧
      StoresScalars Q T.comps mem buf A := by
  have hex : ∀ r : Coord2, ∃ m l, r ∈ Q.ranks →
      setUp layout (Q.on r) alignment ld = some m ∧
      datasetMap T ⟨Q.col.size, Q.row.size, T.comps⟩ (Q.on r) m = some l ∧
      ∀ u, u ∈ l ↔ ∃ i j c, OwnsScalar (Q.row.onRank r.row) (Q.col.onRank r.col) T.comps m u i j c := by
    intro r
    by_cases hr : r ∈ Q.ranks
    · obtain ⟨⟨r0, r1⟩, s0, s1⟩ := Params2.mem_ranks_iff.1 hr
      have v1 := hQ.1.onRank r0 r1
      have v2 := hQ.2.onRank s0 s1
      obtain ⟨m, hm⟩ := C11_accepted v1 v2 layout
        (fun _ => ⟨by show Q.row.offset % Q.row.block = 0; rw [ho.1]; exact Int.zero_emod _,
          by show Q.col.offset % Q.col.block = 0; rw [ho.2]; exact Int.zero_emod _⟩) hal ld
        (by rintro v rfl; rcases hld with h | h <;> cases h)
      obtain ⟨l, h1, h2⟩ := datasetMap_spec v1 v2 (Or.inl ⟨layout, alignment, ld, hm⟩) T hT
      exact ⟨m, l, fun _ => ⟨hm, h1, h2⟩⟩
    · exact ⟨⟨[], fun _ => 0⟩, [], fun h => absurd h hr⟩
  choose m l hl using hex
  refine ⟨m, fun r => storeAll ((l r).map fun u => (u.2, ds.data u.1)) (before r), ?_, ?_⟩
  · intro r hr
    obtain ⟨⟨r0, r1⟩, s0, s1⟩ := Params2.mem_ranks_iff.1 hr
    obtain ⟨h1, h2, _⟩ := hl r hr
    unfold hdf5Read
    rw [if_pos hbase.symm, hds.1]
    have := C01_create_2d heavy (hQ.1.onRank r0 r1) (hQ.2.onRank s0 s1)
    simp only [Params.onRank, ho.1, ho.2, hb.1, hb.2] at this
    dsimp only
    rw [this, Option.bind_some]
    have e : (⟨Params.dist ⟨Q.row.size, Q.row.block, Q.row.block, Q.row.grid, r.row, Q.row.src, 0⟩,
        Params.dist ⟨Q.col.size, Q.col.block, Q.col.block, Q.col.grid, r.col, Q.col.src, 0⟩⟩ : Distribution) = Q.on r := by
      unfold Params2.on Params.onRank
      rw [ho.1, ho.2, hb.1, hb.2]
    rw [e, h1, Option.bind_some, h2]
    rfl
  · intro i j c hi hj hc r
    have hr : r ∈ Q.ranks := by
      have g1 : 0 < Q.row.grid := hQ.1.2.2.2.2.1
      have g2 : 0 < Q.col.grid := hQ.2.2.2.2.2.1
      exact Params2.mem_ranks_iff.2 ⟨⟨Int.emod_nonneg _ (by omega), Int.emod_lt_of_pos _ g1⟩,
        Int.emod_nonneg _ (by omega), Int.emod_lt_of_pos _ g2⟩
    obtain ⟨⟨r0, r1⟩, s0, s1⟩ := Params2.mem_ranks_iff.1 hr
    have v1 := hQ.1.onRank r0 r1
    have v2 := hQ.2.onRank s0 s1
    obtain ⟨h1, _, h3⟩ := hl r hr
    have hso := Allocated.sound v1 v2 (m := m r) (Or.inl ⟨layout, alignment, ld, h1⟩)
    have here : ∀ {i j : Int}, (0 ≤ i ∧ i < Q.row.size) → (0 ≤ j ∧ j < Q.col.size) → Q.row.owner i = r.row →
        Q.col.owner j = r.col →
        (dist2 (Q.row.onRank r.row) (Q.col.onRank r.col)).LocalElem (Q.row.localPos i) (Q.col.localPos j) := by
      intro i j hi hj oi oj
      obtain ⟨a1, a2, _⟩ := v1.owned_elem hi.1 hi.2 oi
      obtain ⟨b1, b2, _⟩ := v2.owned_elem hj.1 hj.2 oj
      have p1 := hQ.1.localPos_eq hi.1
      have p2 := hQ.2.localPos_eq hj.1
      rw [oi] at p1
      rw [oj] at p2
      rw [p1] at a1 a2
      rw [p2] at b1 b2
      exact ⟨⟨a1, a2⟩, b1, b2⟩
    obtain ⟨a, ha, _⟩ := hso.inside _ _ (here hi hj rfl rfl)
    refine ⟨a, ha, ?_⟩
    dsimp only
    apply storeAll_eq
    · intro u hu hux
      obtain ⟨w, hw, rfl⟩ := List.mem_map.1 hu
      obtain ⟨i', j', c', o⟩ := (h3 w).1 hw
      obtain ⟨a', ha', rfl⟩ := o.addr
      dsimp only at hux ⊢
      simp only [Prod.mk.injEq] at hux
      obtain ⟨e1, e2⟩ := lin_inj (ld := T.comps) (y := a'.2) (y' := a.2) o.comp.1 o.comp.2 hc.1 hc.2
        (by linarith [Int.mul_comm T.comps a'.2, Int.mul_comm T.comps a.2])
      obtain rfl : a' = a := Prod.ext hux.1 e2
      have := hso.injective _ _ _ _ (here o.row o.col o.rowOwner o.colOwner) (here hi hj rfl rfl) (ha'.trans ha.symm)
      have g1 := C03_owned_global_local_global v1 o.row.1 o.rowOwner
      have g2 := C03_owned_global_local_global v1 hi.1 rfl
      have g3 := C03_owned_global_local_global v2 o.col.1 o.colOwner
      have g4 := C03_owned_global_local_global v2 hj.1 rfl
      have p1 := hQ.1.localPos_eq o.row.1
      have p2 := hQ.1.localPos_eq hi.1
      have p3 := hQ.2.localPos_eq o.col.1
      have p4 := hQ.2.localPos_eq hj.1
      rw [show Q.row.owner i' = r.row from o.rowOwner] at p1
      rw [show Q.col.owner j' = r.col from o.colOwner] at p3
      rw [p1, this.1] at g1
      rw [show (Q.row.onRank r.row) = Q.row.onRank (Q.row.owner i) from rfl, p2] at g2
      rw [p3, this.2] at g3
      rw [show (Q.col.onRank r.col) = Q.col.onRank (Q.col.owner j) from rfl, p4] at g4
      obtain rfl : i' = i := g1.symm.trans g2
      obtain rfl : j' = j := g3.symm.trans g4
      subst e1
      exact hds.2 i' j' c' hi hj hc
    · left
      refine ⟨_, List.mem_map.2 ⟨((j * Q.row.size + i) * T.comps + c, (a.1, a.2 * T.comps + c)), ?_, rfl⟩, rfl⟩
      exact (h3 _).2 ⟨i, j, c, hi, hj, hc, rfl, rfl, a, ha, rfl⟩

/-- C28: writing a matrix with one distribution and reading the dataset with another reproduces every element. -/
theorem C28_write_read {P Q : Params2} (hP : P.Valid) (hQ : Q.Valid) (hs : Q.row.size = P.row.size ∧ Q.col.size = P.col.size)
    (ho : Q.row.offset = 0 ∧ Q.col.offset = 0) (hb : Q.row.tile = Q.row.block ∧ Q.col.tile = Q.col.block)
    {T : ElemType} (hT : 0 < T.comps) {mem : Coord2 → MatrixMem} (hmem : ∀ r ∈ P.ranks, Allocated (P.on r) (mem r))
    {buf : Coord2 → ScalarAddr → E} {A : Int → Int → Int → E} (hA : StoresScalars P T.comps mem buf A)
    {has_mpio : Bool} {file_rank : Coord2 → Int} (hfile : has_mpio = true ∨ (P.row.grid = 1 ∧ P.col.grid = 1))
    (hlocal : P.row.grid = 1 ∧ P.col.grid = 1 → ∀ r ∈ P.ranks, file_rank r = 0)
    (heavy : Bool) (layout : AllocationLayout) {alignment : Int} (hal : 0 < alignment) {ld : LdSpec}
    (hld : ld = .compact ∨ ld = .padded) (before : Coord2 → ScalarAddr → E) :
    ∃ dims, ∃ parts : Coord2 → List (Int × E),
      (∀ r ∈ P.ranks, hdf5Write has_mpio (file_rank r) T (P.on r) (mem r) (buf r) = some (dims, parts r)) ∧
      ∀ ds : Dataset E, ds.base = T.base → ds.dims = dims → WrittenBy ds P.ranks parts →
        ∃ mem' buf', (∀ r ∈ Q.ranks, hdf5Read heavy layout alignment ld T ds ⟨Q.row.block, Q.col.block⟩
            ⟨Q.row.grid, Q.col.grid⟩ r ⟨Q.row.src, Q.col.src⟩ (before r) = some (Q.on r, mem' r, buf' r)) ∧
          StoresScalars Q T.comps mem' buf' A := by
  obtain ⟨parts, h1, h2⟩ := C28_write hP hT hmem hA hfile hlocal
  refine ⟨_, parts, h1, fun ds hbase hd hw => ?_⟩
  have := h2 ds hd hw
  rw [← hs.1, ← hs.2] at this
  exact C28_read hQ ho hb hT hbase this heavy layout hal hld before

/-- A local matrix in a parallel file: only the process with rank 0 in the file's communicator stores its matrix. -/
theorem C28_local_matrix_only_rank_zero {d : Distribution} (h : d.row.grid = 1 ∧ d.col.grid = 1) (T : ElemType)
    (has_mpio : Bool) {file_rank : Int} (hr : file_rank ≠ 0) (mem : MatrixMem) (buf : ScalarAddr → E) :
    hdf5Write has_mpio file_rank T d mem buf = some (⟨d.col.size, d.row.size, T.comps⟩, []) := by
  simp [hdf5Write, h.1, h.2, hr]

/-- A distributed matrix is rejected by a file that does not support parallel writing. -/
theorem C28_distributed_needs_parallel_file {d : Distribution} (h : ¬ (d.row.grid = 1 ∧ d.col.grid = 1)) (T : ElemType)
    (file_rank : Int) (mem : MatrixMem) (buf : ScalarAddr → E) : hdf5Write false file_rank T d mem buf = none := by
  unfold hdf5Write
  dsimp only
  rw [if_neg]
  simp only [Bool.or_false, Bool.and_eq_true, decide_eq_true_eq]
  exact h

/-- Only the scalar type is compared: a dataset with a complex matrix is accepted as a real matrix, and gives the real
parts. -/
theorem C28_complex_dataset_read_as_real :
    (hdf5Read false .ColMajor 8 .padded ⟨7, 1⟩ ⟨7, ⟨1, 2, 2⟩, fun k => 10 + k⟩ ⟨2, 1⟩ ⟨1, 1⟩ ⟨0, 0⟩ ⟨0, 0⟩ (fun _ => 0)).map
      (fun x => (x.2.2 (.whole, 0), x.2.2 (.whole, 1))) = some (10, 12) := by decide

/-! The hypotheses can be met: a 5 x 4 complex matrix with offset on a 2 x 3 grid, read on 3 x 1. -/
def h5P : Params2 := ⟨⟨5, 2, 2, 2, 0, 1, 1⟩, ⟨4, 4, 2, 3, 0, 2, 0⟩⟩
def h5Q : Params2 := ⟨⟨5, 3, 3, 3, 0, 2, 0⟩, ⟨4, 1, 1, 1, 0, 0, 0⟩⟩

example : h5P.Valid ∧ h5Q.Valid ∧ (h5Q.row.size = h5P.row.size ∧ h5Q.col.size = h5P.col.size) ∧
    (h5Q.row.offset = 0 ∧ h5Q.col.offset = 0) ∧ (h5Q.row.tile = h5Q.row.block ∧ h5Q.col.tile = h5Q.col.block) := by decide

/-- For every matrix there are contents of the memories that store it. -/
theorem storesScalars_exists {P : Params2} (hP : P.Valid) {comps : Int} {mem : Coord2 → MatrixMem}
    (hmem : ∀ r ∈ P.ranks, Allocated (P.on r) (mem r)) [Inhabited E] (A : Int → Int → Int → E) :
    ∃ buf, StoresScalars P comps mem buf A := by
  classical
  refine ⟨fun r x => if h : ∃ i j c a, (0 ≤ i ∧ i < P.row.size) ∧ (0 ≤ j ∧ j < P.col.size) ∧ (0 ≤ c ∧ c < comps) ∧
      P.row.owner i = r.row ∧ P.col.owner j = r.col ∧
      (mem r).elemAddr (P.on r) (P.row.localPos i) (P.col.localPos j) = some a ∧ x = (a.1, a.2 * comps + c)
    then A h.choose h.choose_spec.choose h.choose_spec.choose_spec.choose else default, ?_⟩
  intro i j c hi hj hc r
  have hr : r ∈ P.ranks := by
    have g1 : 0 < P.row.grid := hP.1.2.2.2.2.1
    have g2 : 0 < P.col.grid := hP.2.2.2.2.2.1
    exact Params2.mem_ranks_iff.2 ⟨⟨Int.emod_nonneg _ (by omega), Int.emod_lt_of_pos _ g1⟩,
      Int.emod_nonneg _ (by omega), Int.emod_lt_of_pos _ g2⟩
  obtain ⟨⟨r0, r1⟩, s0, s1⟩ := Params2.mem_ranks_iff.1 hr
  have v1 := hP.1.onRank r0 r1
  have v2 := hP.2.onRank s0 s1
  have hso := Allocated.sound v1 v2 (hmem r hr)
  have here : ∀ {i j : Int}, (0 ≤ i ∧ i < P.row.size) → (0 ≤ j ∧ j < P.col.size) → P.row.owner i = r.row →
      P.col.owner j = r.col →
      (dist2 (P.row.onRank r.row) (P.col.onRank r.col)).LocalElem (P.row.localPos i) (P.col.localPos j) := by
    intro i j hi hj oi oj
    obtain ⟨a1, a2, _⟩ := v1.owned_elem hi.1 hi.2 oi
    obtain ⟨b1, b2, _⟩ := v2.owned_elem hj.1 hj.2 oj
    have p1 := hP.1.localPos_eq hi.1
    have p2 := hP.2.localPos_eq hj.1
    rw [oi] at p1
    rw [oj] at p2
    rw [p1] at a1 a2
    rw [p2] at b1 b2
    exact ⟨⟨a1, a2⟩, b1, b2⟩
  obtain ⟨a, ha, _⟩ := hso.inside _ _ (here hi hj rfl rfl)
  refine ⟨a, ha, ?_⟩
  have h : ∃ i' j' c' a', (0 ≤ i' ∧ i' < P.row.size) ∧ (0 ≤ j' ∧ j' < P.col.size) ∧ (0 ≤ c' ∧ c' < comps) ∧
      P.row.owner i' = r.row ∧ P.col.owner j' = r.col ∧
      (mem r).elemAddr (P.on r) (P.row.localPos i') (P.col.localPos j') = some a' ∧
      ((a.1, a.2 * comps + c) : ScalarAddr) = (a'.1, a'.2 * comps + c') := ⟨i, j, c, a, hi, hj, hc, rfl, rfl, ha, rfl⟩
  dsimp only
  rw [dif_pos h]
  obtain ⟨a', q1, q2, q3, q4, q5, q6, q7⟩ := h.choose_spec.choose_spec.choose_spec
  generalize h.choose_spec.choose_spec.choose = c' at *
  generalize h.choose_spec.choose = j' at *
  generalize h.choose = i' at *
  simp only [Prod.mk.injEq] at q7
  obtain ⟨e1, e2⟩ := lin_inj (ld := comps) (y := a'.2) (y' := a.2) q3.1 q3.2 hc.1 hc.2
    (by linarith [Int.mul_comm comps a'.2, Int.mul_comm comps a.2])
  obtain rfl : a' = a := Prod.ext q7.1.symm e2
  have := hso.injective _ _ _ _ (here q1 q2 q4 q5) (here hi hj rfl rfl) (q6.trans ha.symm)
  have g1 := C03_owned_global_local_global v1 q1.1 q4
  have g2 := C03_owned_global_local_global v1 hi.1 rfl
  have g3 := C03_owned_global_local_global v2 q2.1 q5
  have g4 := C03_owned_global_local_global v2 hj.1 rfl
  have p1 := hP.1.localPos_eq q1.1
  have p2 := hP.1.localPos_eq hi.1
  have p3 := hP.2.localPos_eq q2.1
  have p4 := hP.2.localPos_eq hj.1
  rw [q4] at p1
  rw [q5] at p3
  rw [p1, this.1] at g1
  rw [show (P.row.onRank r.row) = P.row.onRank (P.row.owner i) from rfl, p2] at g2
  rw [p3, this.2] at g3
  rw [show (P.col.onRank r.col) = P.col.onRank (P.col.owner j) from rfl, p4] at g4
  obtain rfl : i' = i := g1.symm.trans g2
  obtain rfl : j' = j := g3.symm.trans g4
  subst e1
  rfl

example (A : Int → Int → Int → Int) : ∃ mem buf, (∀ r ∈ h5P.ranks, Allocated (h5P.on r) (mem r)) ∧
    StoresScalars h5P 2 mem buf A := by
  have hv : h5P.Valid := by decide
  have hex : ∀ r : Coord2, ∃ m, r ∈ h5P.ranks → setUp .Tiles (h5P.on r) 8 .padded = some m := by
    intro r
    by_cases hr : r ∈ h5P.ranks
    · obtain ⟨⟨r0, r1⟩, s0, s1⟩ := Params2.mem_ranks_iff.1 hr
      obtain ⟨m, hm⟩ := C11_accepted (hv.1.onRank r0 r1) (hv.2.onRank s0 s1) .Tiles (fun h => by cases h)
        (alignment := 8) (by omega) .padded (fun v h => by cases h)
      exact ⟨m, fun _ => hm⟩
    · exact ⟨⟨[], fun _ => 0⟩, fun h => absurd h hr⟩
  choose m hm using hex
  have hmem : ∀ r ∈ h5P.ranks, Allocated (h5P.on r) (m r) := fun r hr => Or.inl ⟨_, _, _, hm r hr⟩
  obtain ⟨buf, hb⟩ := storesScalars_exists hv (comps := 2) hmem A
  exact ⟨m, buf, hmem, hb⟩

end DLAF
