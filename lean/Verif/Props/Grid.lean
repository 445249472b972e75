import Verif.Model.Grid
import Verif.Props.Index
import Mathlib.Tactic.Linarith

/-! # C18: process grid coordinates match the requested ordering -/
namespace DLAF.C18
open DLAF

/-- General fact on `MPI_Comm_split`: if the members are numbered `0..n-1` by `f` consistently with the
keys, `f` is the new rank and `n` the new size. -/
theorem split_eq {P : Nat} {colour : Nat → Option Int} {key : Nat → Int} {r n : Nat} {f g : Nat → Nat}
    (hr : r ∈ splitMembers P colour r)
    (h1 : ∀ k, k < n → g k ∈ splitMembers P colour r ∧ f (g k) = k)
    (h2 : ∀ r' ∈ splitMembers P colour r, f r' < n ∧ g (f r') = r')
    (h3 : ∀ r' ∈ splitMembers P colour r, (key r' < key r ∨ (key r' = key r ∧ r' < r)) ↔ f r' < f r) :
    splitSize P colour r = n ∧ splitRank P colour key r = f r := by
  have inj : ∀ m, m ≤ n → Set.InjOn g (Finset.range m : Set Nat) := by
    intro m hm a ha b hb hab
    have ha : a < m := by simpa using ha
    have hb : b < m := by simpa using hb
    rw [← (h1 a (by omega)).2, ← (h1 b (by omega)).2, hab]
  constructor
  · have : splitMembers P colour r = (Finset.range n).image g := by
      ext x
      simp only [Finset.mem_image, Finset.mem_range]
      constructor
      · intro hx; exact ⟨f x, h2 x hx⟩
      · rintro ⟨k, hk, rfl⟩; exact (h1 k hk).1
    rw [splitSize, this, Finset.card_image_of_injOn (inj n (Nat.le_refl _)), Finset.card_range]
  · have hfr := (h2 r hr).1
    have : (splitMembers P colour r).filter (fun r' => key r' < key r ∨ (key r' = key r ∧ r' < r))
        = (Finset.range (f r)).image g := by
      ext x
      simp only [Finset.mem_image, Finset.mem_range, Finset.mem_filter]
      constructor
      · rintro ⟨hx, hk⟩; exact ⟨f x, (h3 x hx).1 hk, (h2 x hx).2⟩
      · rintro ⟨k, hk, rfl⟩
        obtain ⟨e1, e2⟩ := h1 k (by omega)
        exact ⟨e1, (h3 _ e1).2 (by omega)⟩
    rw [splitRank, this, Finset.card_image_of_injOn (inj _ (by omega)), Finset.card_range]

variable {o : Ordering2} {nrows ncols : Int} {P r : Nat}

/-- position of a process in the grid -/
theorem pos_spec (hr : 0 < nrows) (hc : 0 < ncols) (h : (r : Int) < nrows * ncols) :
    (gridPosition o nrows ncols r).isIn ⟨nrows, ncols⟩ = true ∧
    computeLinearIndex o (gridPosition o nrows ncols r) ⟨nrows, ncols⟩ = r :=
  C08_coords_then_linear o (by omega) h ⟨by show 0 ≤ nrows; omega, by show 0 ≤ ncols; omega⟩

theorem isIn_iff {i d : Coord2} : i.isIn d = true ↔ 0 ≤ i.row ∧ i.row < d.row ∧ 0 ≤ i.col ∧ i.col < d.col := by
  simp only [Coord2.isIn, Bool.and_eq_true, decide_eq_true_eq]; tauto

theorem pos_of_lin {i : Coord2} (hi : i.isIn ⟨nrows, ncols⟩ = true) (o' : Ordering2) :
    gridPosition o' nrows ncols (computeLinearIndex o' i ⟨nrows, ncols⟩).toNat = i ∧
    ((computeLinearIndex o' i ⟨nrows, ncols⟩).toNat : Int) = computeLinearIndex o' i ⟨nrows, ncols⟩ ∧
    computeLinearIndex o' i ⟨nrows, ncols⟩ < nrows * ncols := by
  obtain ⟨h1, h2, h3⟩ := C08_linear_then_coords o' hi
  have e : ((computeLinearIndex o' i ⟨nrows, ncols⟩).toNat : Int) = computeLinearIndex o' i ⟨nrows, ncols⟩ :=
    Int.toNat_of_nonneg h2
  refine ⟨?_, e, h3⟩
  unfold gridPosition
  rw [e]; exact h1

theorem mul_lt_iff {a b c d n : Int} (hc : 0 ≤ c) (hcn : c < n) (hd : 0 ≤ d) (hdn : d < n) :
    a * n + c < b * n + d ↔ a < b ∨ (a = b ∧ c < d) := by
  constructor
  · intro h
    by_contra hcon
    push Not at hcon
    obtain ⟨h1, h2⟩ := hcon
    rcases Int.lt_or_eq_of_le h1 with h3 | h3
    · have := Int.mul_le_mul_of_nonneg_right (show b + 1 ≤ a by omega) (show 0 ≤ n by omega)
      have e : (b + 1) * n = b * n + n := by ring
      omega
    · subst h3; have := h2 rfl; omega
  · rintro (h | ⟨rfl, h⟩)
    · have := Int.mul_le_mul_of_nonneg_right (show a + 1 ≤ b by omega) (show 0 ≤ n by omega)
      have e : (a + 1) * n = a * n + n := by ring
      omega
    · omega

/-- In one row the process numbers increase with the column. -/
theorem lin_lt_same_row {i j : Coord2} (hi : i.isIn ⟨nrows, ncols⟩ = true) (hj : j.isIn ⟨nrows, ncols⟩ = true)
    (h : i.row = j.row) :
    computeLinearIndex o i ⟨nrows, ncols⟩ < computeLinearIndex o j ⟨nrows, ncols⟩ ↔ i.col < j.col := by
  rw [isIn_iff] at hi hj
  dsimp only at hi hj
  cases o
  · simp only [computeLinearIndex, computeLinearIndexRowMajor, h]; omega
  · simp only [computeLinearIndex, computeLinearIndexColMajor]
    rw [mul_lt_iff (by omega) (by omega) (by omega) (by omega)]; omega

theorem lin_lt_same_col {i j : Coord2} (hi : i.isIn ⟨nrows, ncols⟩ = true) (hj : j.isIn ⟨nrows, ncols⟩ = true)
    (h : i.col = j.col) :
    computeLinearIndex o i ⟨nrows, ncols⟩ < computeLinearIndex o j ⟨nrows, ncols⟩ ↔ i.row < j.row := by
  rw [isIn_iff] at hi hj
  dsimp only at hi hj
  cases o
  · simp only [computeLinearIndex, computeLinearIndexRowMajor]
    rw [mul_lt_iff (by omega) (by omega) (by omega) (by omega)]; omega
  · simp only [computeLinearIndex, computeLinearIndexColMajor, h]; omega

theorem inGrid_iff : isInGrid nrows ncols r = true ↔ (r : Int) < nrows * ncols := by simp [isInGrid]

theorem mem_row {r' : Nat} (hrg : (r : Int) < nrows * ncols) : r' ∈ splitMembers P (rowColour o nrows ncols) r ↔
    r' < P ∧ (r' : Int) < nrows * ncols ∧
      (gridPosition o nrows ncols r').row = (gridPosition o nrows ncols r).row := by
  have h1 : isInGrid nrows ncols r = true := inGrid_iff.2 hrg
  simp only [splitMembers, Finset.mem_filter, Finset.mem_range, rowColour, h1, if_true]
  by_cases h2 : (r' : Int) < nrows * ncols
  · simp [inGrid_iff.2 h2, h2]
  · have : isInGrid nrows ncols r' = false := by simpa [isInGrid] using h2
    simp [this, h2]

theorem mem_col {r' : Nat} (hrg : (r : Int) < nrows * ncols) : r' ∈ splitMembers P (colColour o nrows ncols) r ↔
    r' < P ∧ (r' : Int) < nrows * ncols ∧
      (gridPosition o nrows ncols r').col = (gridPosition o nrows ncols r).col := by
  have h1 : isInGrid nrows ncols r = true := inGrid_iff.2 hrg
  simp only [splitMembers, Finset.mem_filter, Finset.mem_range, colColour, h1, if_true]
  by_cases h2 : (r' : Int) < nrows * ncols
  · simp [inGrid_iff.2 h2, h2]
  · have : isInGrid nrows ncols r' = false := by simpa [isInGrid] using h2
    simp [this, h2]

theorem mem_full {r' : Nat} (hrg : (r : Int) < nrows * ncols) : r' ∈ splitMembers P (fullColour nrows ncols) r ↔
    r' < P ∧ (r' : Int) < nrows * ncols := by
  have h1 : isInGrid nrows ncols r = true := inGrid_iff.2 hrg
  simp only [splitMembers, Finset.mem_filter, Finset.mem_range, fullColour, h1, if_true]
  by_cases h2 : (r' : Int) < nrows * ncols
  · simp [inGrid_iff.2 h2, h2]
  · have : isInGrid nrows ncols r' = false := by simpa [isInGrid] using h2
    simp [this, h2]

theorem row_split (hr : 0 < nrows) (hc : 0 < ncols) (hP : nrows * ncols ≤ P)
    (hrg : (r : Int) < nrows * ncols) :
    splitSize P (rowColour o nrows ncols) r = ncols.toNat ∧
    splitRank P (rowColour o nrows ncols) (fun r => r) r = (gridPosition o nrows ncols r).col.toNat := by
  obtain ⟨p1, p2⟩ := pos_spec (o := o) hr hc hrg
  have p1' := isIn_iff.1 p1
  dsimp only at p1'
  refine split_eq (f := fun r' => (gridPosition o nrows ncols r').col.toNat)
    (g := fun k => (computeLinearIndex o ⟨(gridPosition o nrows ncols r).row, k⟩ ⟨nrows, ncols⟩).toNat)
    ?_ ?_ ?_ ?_
  · rw [mem_row hrg]; exact ⟨by omega, hrg, rfl⟩
  · intro k hk
    have hin : Coord2.isIn ⟨(gridPosition o nrows ncols r).row, (k : Int)⟩ ⟨nrows, ncols⟩ = true := by
      rw [isIn_iff]; dsimp only; omega
    obtain ⟨e1, e2, e3⟩ := pos_of_lin hin o
    refine ⟨?_, ?_⟩
    · rw [mem_row hrg, e1]
      refine ⟨by omega, by omega, rfl⟩
    · rw [e1]; simp
  · intro r' hr'
    rw [mem_row hrg] at hr'
    obtain ⟨q1, q2⟩ := pos_spec (o := o) hr hc hr'.2.1
    have q1' := isIn_iff.1 q1
    dsimp only at q1'
    refine ⟨by omega, ?_⟩
    rw [← hr'.2.2, Int.toNat_of_nonneg q1'.2.2.1]
    have : (⟨(gridPosition o nrows ncols r').row, (gridPosition o nrows ncols r').col⟩ : Coord2)
      = gridPosition o nrows ncols r' := rfl
    rw [this, q2]; simp
  · intro r' hr'
    rw [mem_row hrg] at hr'
    obtain ⟨q1, q2⟩ := pos_spec (o := o) hr hc hr'.2.1
    have q1' := isIn_iff.1 q1
    dsimp only at q1'
    have := lin_lt_same_row (o := o) q1 p1 hr'.2.2
    rw [q2, p2] at this
    omega

theorem col_split (hr : 0 < nrows) (hc : 0 < ncols) (hP : nrows * ncols ≤ P)
    (hrg : (r : Int) < nrows * ncols) :
    splitSize P (colColour o nrows ncols) r = nrows.toNat ∧
    splitRank P (colColour o nrows ncols) (fun r => r) r = (gridPosition o nrows ncols r).row.toNat := by
  obtain ⟨p1, p2⟩ := pos_spec (o := o) hr hc hrg
  have p1' := isIn_iff.1 p1
  dsimp only at p1'
  refine split_eq (f := fun r' => (gridPosition o nrows ncols r').row.toNat)
    (g := fun k => (computeLinearIndex o ⟨k, (gridPosition o nrows ncols r).col⟩ ⟨nrows, ncols⟩).toNat)
    ?_ ?_ ?_ ?_
  · rw [mem_col hrg]; exact ⟨by omega, hrg, rfl⟩
  · intro k hk
    have hin : Coord2.isIn ⟨(k : Int), (gridPosition o nrows ncols r).col⟩ ⟨nrows, ncols⟩ = true := by
      rw [isIn_iff]; dsimp only; omega
    obtain ⟨e1, e2, e3⟩ := pos_of_lin hin o
    refine ⟨?_, ?_⟩
    · rw [mem_col hrg, e1]
      refine ⟨by omega, by omega, rfl⟩
    · rw [e1]; simp
  · intro r' hr'
    rw [mem_col hrg] at hr'
    obtain ⟨q1, q2⟩ := pos_spec (o := o) hr hc hr'.2.1
    have q1' := isIn_iff.1 q1
    dsimp only at q1'
    refine ⟨by omega, ?_⟩
    rw [← hr'.2.2, Int.toNat_of_nonneg q1'.1]
    have : (⟨(gridPosition o nrows ncols r').row, (gridPosition o nrows ncols r').col⟩ : Coord2)
      = gridPosition o nrows ncols r' := rfl
    rw [this, q2]; simp
  · intro r' hr'
    rw [mem_col hrg] at hr'
    obtain ⟨q1, q2⟩ := pos_spec (o := o) hr hc hr'.2.1
    have q1' := isIn_iff.1 q1
    dsimp only at q1'
    have := lin_lt_same_col (o := o) q1 p1 hr'.2.2
    rw [q2, p2] at this
    omega

theorem full_split (hr : 0 < nrows) (hc : 0 < ncols) (hP : nrows * ncols ≤ P)
    (hrg : (r : Int) < nrows * ncols) :
    splitSize P (fullColour nrows ncols) r = (nrows * ncols).toNat ∧
    splitRank P (fullColour nrows ncols) (fullKey o nrows ncols) r = (fullKey o nrows ncols r).toNat := by
  have key : ∀ r' : Nat, (r' : Int) < nrows * ncols →
      (((fullKey o nrows ncols r').toNat : Nat) : Int) = fullKey o nrows ncols r' ∧
      fullKey o nrows ncols r' < nrows * ncols ∧
      (computeLinearIndex o (gridPosition fullCommunicatorOrder nrows ncols (fullKey o nrows ncols r').toNat)
        ⟨nrows, ncols⟩).toNat = r' := by
    intro r' hr'
    obtain ⟨q1, q2⟩ := pos_spec (o := o) hr hc hr'
    obtain ⟨e1, e2, e3⟩ := pos_of_lin q1 fullCommunicatorOrder
    refine ⟨e2, e3, ?_⟩
    unfold fullKey
    rw [e1, q2]; simp
  refine split_eq (f := fun r' => (fullKey o nrows ncols r').toNat)
    (g := fun k => (computeLinearIndex o (gridPosition fullCommunicatorOrder nrows ncols k) ⟨nrows, ncols⟩).toNat)
    ?_ ?_ ?_ ?_
  · rw [mem_full hrg]; exact ⟨by omega, hrg⟩
  · intro k hk
    have hk' : (k : Int) < nrows * ncols := by omega
    obtain ⟨q1, q2⟩ := pos_spec (o := fullCommunicatorOrder) hr hc hk'
    obtain ⟨e1, e2, e3⟩ := pos_of_lin q1 o
    refine ⟨?_, ?_⟩
    · rw [mem_full hrg]; exact ⟨by omega, by omega⟩
    · dsimp only [fullKey]
      rw [e1, q2]; simp
  · intro r' hr'
    rw [mem_full hrg] at hr'
    obtain ⟨k1, k2, k3⟩ := key r' hr'.2
    exact ⟨by omega, k3⟩
  · intro r' hr'
    rw [mem_full hrg] at hr'
    obtain ⟨k1, k2, k3⟩ := key r' hr'.2
    obtain ⟨l1, l2, l3⟩ := key r hrg
    constructor
    · rintro (h | ⟨h1, h2⟩)
      · omega
      · rw [h1, l3] at k3; omega
    · intro h; left; omega

/-- **The grid.**  For positive grid dimensions that fit into the communicator: a process whose rank is at
least rows×cols is not in the grid; any other process gets the position whose number in the requested
ordering is its rank, its row communicator contains exactly the grid processes with the same row, numbered
by column, its column communicator those with the same column, numbered by row, and its rank in the full
communicator is what `rankFullCommunicator` returns for its position (row-major). -/
theorem C18_grid (o : Ordering2) (hr : 0 < nrows) (hc : 0 < ncols) (hP : nrows * ncols ≤ P) :
    ((r : Int) < nrows * ncols → ∃ v, makeGrid o nrows ncols P r = some (some v) ∧
      v.gridSize = ⟨nrows, ncols⟩ ∧
      (0 ≤ v.position.row ∧ v.position.row < nrows ∧ 0 ≤ v.position.col ∧ v.position.col < ncols) ∧
      (o = .RowMajor → (r : Int) = v.position.row * ncols + v.position.col) ∧
      (o = .ColumnMajor → (r : Int) = v.position.row + v.position.col * nrows) ∧
      (v.rowRank : Int) = v.position.col ∧ (v.rowSize : Int) = ncols ∧
      (v.colRank : Int) = v.position.row ∧ (v.colSize : Int) = nrows ∧
      (v.fullRank : Int) = v.position.row * ncols + v.position.col ∧
      (v.fullRank : Int) = rankFullCommunicator v.gridSize v.position ∧
      (v.fullSize : Int) = nrows * ncols ∧
      (∀ r' w, makeGrid o nrows ncols P r' = some (some w) → r' < P →
        (r' ∈ v.rowMembers ↔ w.position.row = v.position.row) ∧
        (r' ∈ v.colMembers ↔ w.position.col = v.position.col))) ∧
    (nrows * ncols ≤ r → makeGrid o nrows ncols P r = some none) := by
  constructor
  · intro hrg
    obtain ⟨p1, p2⟩ := pos_spec (o := o) hr hc hrg
    have p1' := isIn_iff.1 p1
    dsimp only at p1'
    obtain ⟨a1, a2⟩ := row_split (o := o) hr hc hP hrg
    obtain ⟨b1, b2⟩ := col_split (o := o) hr hc hP hrg
    obtain ⟨c1, c2⟩ := full_split (o := o) hr hc hP hrg
    have hm : makeGrid o nrows ncols P r = some (some (gridView o nrows ncols P r)) := by
      unfold makeGrid
      rw [if_pos hP, if_pos (inGrid_iff.2 hrg)]
    have hk : fullKey o nrows ncols r =
        (gridPosition o nrows ncols r).row * ncols + (gridPosition o nrows ncols r).col := rfl
    have hk0 := (C08_linear_then_coords fullCommunicatorOrder p1).2
    have hk0' : 0 ≤ fullKey o nrows ncols r := hk0.1
    refine ⟨_, hm, rfl, p1', ?_, ?_, ?_, ?_, ?_, ?_, ?_, ?_, ?_, ?_⟩ <;> dsimp only [gridView]
    · rintro rfl; rw [← p2]; rfl
    · rintro rfl; rw [← p2]; simp only [computeLinearIndex, computeLinearIndexColMajor]; omega
    · rw [a2]; omega
    · rw [a1]; omega
    · rw [b2]; omega
    · rw [b1]; omega
    · rw [c2]; omega
    · rw [c2, Int.toNat_of_nonneg hk0']; rfl
    · rw [c1]; omega
    · intro r' w hw hr'
      have hr'g : (r' : Int) < nrows * ncols := by
        by_contra hcon
        unfold makeGrid at hw
        rw [if_pos hP, if_neg (by rw [inGrid_iff]; exact hcon)] at hw
        cases hw
      have hwp : w.position = gridPosition o nrows ncols r' := by
        unfold makeGrid at hw
        rw [if_pos hP, if_pos (inGrid_iff.2 hr'g)] at hw
        simp only [Option.some.injEq] at hw
        rw [← hw]; rfl
      rw [mem_row hrg, mem_col hrg, hwp]
      exact ⟨⟨fun h => h.2.2, fun h => ⟨hr', hr'g, h⟩⟩, ⟨fun h => h.2.2, fun h => ⟨hr', hr'g, h⟩⟩⟩
  · intro hout
    unfold makeGrid
    rw [if_pos hP, if_neg (by rw [inGrid_iff]; omega)]

/-- **Exactly one process per position.** -/
theorem C18_position_unique (o : Ordering2) (hr : 0 < nrows) (hc : 0 < ncols) (hP : nrows * ncols ≤ P)
    {pos : Coord2} (h0 : 0 ≤ pos.row) (h1 : pos.row < nrows) (h2 : 0 ≤ pos.col) (h3 : pos.col < ncols) :
    ∃! r : Nat, r < P ∧ ∃ v, makeGrid o nrows ncols P r = some (some v) ∧ v.position = pos := by
  have hin : pos.isIn ⟨nrows, ncols⟩ = true := isIn_iff.2 ⟨h0, h1, h2, h3⟩
  obtain ⟨e1, e2, e3⟩ := pos_of_lin hin o
  refine ⟨(computeLinearIndex o pos ⟨nrows, ncols⟩).toNat, ⟨by omega, ?_⟩, ?_⟩
  · have hm : makeGrid o nrows ncols P (computeLinearIndex o pos ⟨nrows, ncols⟩).toNat
      = some (some (gridView o nrows ncols P (computeLinearIndex o pos ⟨nrows, ncols⟩).toNat)) := by
      unfold makeGrid
      rw [if_pos hP, if_pos (inGrid_iff.2 (by omega))]
    exact ⟨_, hm, e1⟩
  · rintro r ⟨hrP, v, hv, hvp⟩
    have hrg : (r : Int) < nrows * ncols := by
      by_contra hcon
      unfold makeGrid at hv
      rw [if_pos hP, if_neg (by rw [inGrid_iff]; exact hcon)] at hv
      cases hv
    have hp : v.position = gridPosition o nrows ncols r := by
      unfold makeGrid at hv
      rw [if_pos hP, if_pos (inGrid_iff.2 hrg)] at hv
      simp only [Option.some.injEq] at hv
      rw [← hv]; rfl
    have := (pos_spec (o := o) hr hc hrg).2
    rw [← hp, hvp] at this
    rw [this]; simp

/-- The constructor fails exactly when the grid does not fit into the communicator. -/
theorem C18_too_large_rejected (o : Ordering2) : makeGrid o nrows ncols P r = none ↔ (P : Int) < nrows * ncols := by
  unfold makeGrid
  split
  · split <;> simp <;> omega
  · simp; omega

/-- Non-vacuity: a 2×3 grid on 7 processes, column-major: process 3 is at (1,1). -/
example : ∃ v, makeGrid .ColumnMajor 2 3 7 3 = some (some v) ∧ v.position = ⟨1, 1⟩ ∧ v.rowRank = 1 ∧
    v.colRank = 1 ∧ v.fullRank = 4 ∧ v.rowMembers = {1, 3, 5} ∧ makeGrid .ColumnMajor 2 3 7 6 = some none :=
  ⟨_, rfl, by decide, by decide, by decide, by decide, by decide, by decide⟩

end DLAF.C18
