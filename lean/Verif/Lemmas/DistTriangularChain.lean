import Verif.Lemmas.DistTriangularStep
import Verif.Lemmas.TriangularVariants
import Verif.Props.DistMultiplication
/- From the local triangular multiplication and solver to the tiles after each iteration, and to the distributed functions. -/
namespace DLAF
variable {K : Type*}

/-- What a loop did whose iterations each work on a group of tiles of their own. -/
theorem forM'_groups_inv {E X : Type*} {g : Nat × Nat → X} {b : Tiles E → X → Option (Tiles E)} {Q : X → Tiles E → Tiles E → Prop}
    (hb : ∀ x m m', b m x = some m' → (∀ z, g z ≠ x → m' z = m z) ∧ Q x m m')
    (hQ : ∀ x m m' n n', Q x m m' → (∀ z, g z = x → n z = m z) → (∀ z, g z = x → n' z = m' z) → Q x n n') :
    ∀ (xs : List X) (m0 m1 : Tiles E), xs.Nodup → forM' xs m0 b = some m1 → (∀ x ∈ xs, Q x m0 m1) ∧ ∀ z, g z ∉ xs → m1 z = m0 z
  | [], m0, m1, _, h => by
    cases h
    exact ⟨by simp, fun _ _ => rfl⟩
  | y :: ys, m0, m1, hnd, h => by
    rw [forM'_cons, Option.bind_eq_some_iff] at h
    obtain ⟨m, h1, h2⟩ := h
    obtain ⟨a1, a2⟩ := hb y m0 m h1
    obtain ⟨b1, b2⟩ := forM'_groups_inv hb hQ ys m m1 (List.nodup_cons.1 hnd).2 h2
    have hy := (List.nodup_cons.1 hnd).1
    refine ⟨fun x hx => ?_, fun z hz => ?_⟩
    · rcases List.mem_cons.1 hx with rfl | hx
      · exact hQ x m0 m m0 m1 a2 (fun _ _ => rfl) (fun z hz => b2 z (by rw [hz]; exact hy))
      · refine hQ x m m1 m0 m1 (b1 x hx) (fun z hz => ?_) (fun _ _ => rfl)
        exact (a1 z (by rw [hz]; intro e; exact hy (e ▸ hx))).symm
    · rw [List.mem_cons, not_or] at hz
      rw [b2 z hz.2, a1 z hz.1]

/-- What the update of the trailing tiles of a column did. -/
theorem upd_loop_inv {k j : Nat} {G : Nat → Blk K → Blk K → Option (Blk K)} : ∀ (lk : List Nat) (b b' : Tiles K), lk.Nodup → k ∉ lk →
    (forM' lk b fun b i => b.write (i, j) (G i (b (k, j)) (b (i, j)))) = some b' →
      (∀ i ∈ lk, G i (b (k, j)) (b (i, j)) = some (b' (i, j))) ∧ ∀ z, (z.2 ≠ j ∨ z.1 ∉ lk) → b' z = b z
  | [], b, b', _, _, h => by
    cases h
    exact ⟨by simp, fun _ _ => rfl⟩
  | i :: lk, b, b', hnd, hk, h => by
    rw [forM'_cons, Option.bind_eq_some_iff] at h
    obtain ⟨m, h1, h2⟩ := h
    obtain ⟨v, e1, rfl⟩ := write_some h1
    rw [List.mem_cons, not_or] at hk
    obtain ⟨a1, a2⟩ := upd_loop_inv lk _ b' (List.nodup_cons.1 hnd).2 hk.2 h2
    have hi := (List.nodup_cons.1 hnd).1
    refine ⟨fun q hq => ?_, fun z hz => ?_⟩
    · rcases List.mem_cons.1 hq with rfl | hq
      · rw [a2 (q, j) (Or.inr hi), if_pos rfl]
        exact e1
      · have := a1 q hq
        rw [if_neg (by intro h; exact hk.1 (Prod.mk.inj h).1), if_neg (by intro h; exact hi ((Prod.mk.inj h).1 ▸ hq))] at this
        exact this
    · have hne : z ≠ (i, j) := by
        rintro rfl
        rcases hz with hz | hz
        · exact hz rfl
        · exact hz List.mem_cons_self
      rw [a2 z (hz.imp id fun h hq => h (List.mem_cons_of_mem _ hq)), if_neg hne]

/-- What an iteration of the solver did. -/
theorem solve_inv {js : List Nat} {k n : Nat} {lk : List Nat} (hjs : js.Nodup) (hj : ∀ j, j ∈ js ↔ j < n)
    (hlk : lk.Nodup) (hk : k ∉ lk) {T : Blk K → Option (Blk K)} {G : Nat → Blk K → Blk K → Option (Blk K)} {b b' : Tiles K}
    (h : (forM' js b fun b j => do
        let b ← b.write (k, j) (T (b (k, j)))
        forM' lk b fun b i => b.write (i, j) (G i (b (k, j)) (b (i, j)))) = some b') :
    (∀ j < n, T (b (k, j)) = some (b' (k, j))) ∧ (∀ i ∈ lk, ∀ j < n, G i (b' (k, j)) (b (i, j)) = some (b' (i, j))) ∧
      ∀ i j, i ≠ k → i ∉ lk → b' (i, j) = b (i, j) := by
  have := forM'_groups_inv (g := fun z : Nat × Nat => z.2) (Q := fun j m m' => T (m (k, j)) = some (m' (k, j)) ∧
      (∀ i ∈ lk, G i (m' (k, j)) (m (i, j)) = some (m' (i, j))) ∧ ∀ i, i ≠ k → i ∉ lk → m' (i, j) = m (i, j)) (by
    intro j m m' h
    replace h : (m.write (k, j) (T (m (k, j)))).bind (fun b => forM' lk b fun b i => b.write (i, j) (G i (b (k, j)) (b (i, j)))) = some m' := h
    rw [Option.bind_eq_some_iff] at h
    obtain ⟨m1, h1, h2⟩ := h
    obtain ⟨v, e1, rfl⟩ := write_some h1
    obtain ⟨a1, a2⟩ := upd_loop_inv lk _ _ hlk hk h2
    have ek := a2 (k, j) (Or.inr hk)
    rw [if_pos rfl] at ek
    refine ⟨fun z hz => ?_, by rw [ek]; exact e1, fun i hi => ?_, fun i hi hi' => ?_⟩
    · rw [a2 z (Or.inl hz), if_neg]
      rintro rfl
      exact hz rfl
    · have := a1 i hi
      rw [if_pos rfl, if_neg (by intro h; exact hk ((Prod.mk.inj h).1 ▸ hi))] at this
      rw [ek]
      exact this
    · rw [a2 (i, j) (Or.inr hi'), if_neg (by intro h; exact hi (Prod.mk.inj h).1)]) (by
    rintro j m m' n n' ⟨h1, h2, h3⟩ e1 e2
    rw [e1 (k, j) rfl, e2 (k, j) rfl]
    refine ⟨h1, fun i hi => ?_, fun i hi hi' => ?_⟩
    · rw [e1 (i, j) rfl, e2 (i, j) rfl]; exact h2 i hi
    · rw [e1 (i, j) rfl, e2 (i, j) rfl]; exact h3 i hi hi') js b b' hjs h
  refine ⟨fun j hjn => (this.1 j ((hj j).2 hjn)).1, fun i hi j hjn => (this.1 j ((hj j).2 hjn)).2.1 i hi, fun i j hi hi' => ?_⟩
  by_cases hjn : j ∈ js
  · exact (this.1 j hjn).2.2 i hi hi'
  · exact this.2 (i, j) hjn

/-- What an iteration of the multiplication did. -/
theorem mult_inv {js : List Nat} {k n : Nat} {lk : List Nat} (hjs : js.Nodup) (hj : ∀ j, j ∈ js ↔ j < n)
    (hlk : lk.Nodup) (hk : k ∉ lk) {T : Blk K → Option (Blk K)} {G : Nat → Blk K → Blk K → Option (Blk K)} {b b' : Tiles K}
    (h : (forM' js b fun b j => do
        let b ← forM' lk b fun b i => b.write (i, j) (G i (b (k, j)) (b (i, j)))
        b.write (k, j) (T (b (k, j)))) = some b') :
    (∀ j < n, T (b (k, j)) = some (b' (k, j))) ∧ (∀ i ∈ lk, ∀ j < n, G i (b (k, j)) (b (i, j)) = some (b' (i, j))) ∧
      ∀ i j, i ≠ k → i ∉ lk → b' (i, j) = b (i, j) := by
  have := forM'_groups_inv (g := fun z : Nat × Nat => z.2) (Q := fun j m m' => T (m (k, j)) = some (m' (k, j)) ∧
      (∀ i ∈ lk, G i (m (k, j)) (m (i, j)) = some (m' (i, j))) ∧ ∀ i, i ≠ k → i ∉ lk → m' (i, j) = m (i, j)) (by
    intro j m m' h
    replace h : (forM' lk m fun b i => b.write (i, j) (G i (b (k, j)) (b (i, j)))).bind (fun b => b.write (k, j) (T (b (k, j)))) = some m' := h
    rw [Option.bind_eq_some_iff] at h
    obtain ⟨m1, h1, h2⟩ := h
    obtain ⟨a1, a2⟩ := upd_loop_inv lk _ _ hlk hk h1
    obtain ⟨v, e1, rfl⟩ := write_some h2
    rw [a2 (k, j) (Or.inr hk)] at e1
    refine ⟨fun z hz => ?_, by dsimp only; rw [if_pos rfl]; exact e1, fun i hi => ?_, fun i hi hi' => ?_⟩ <;> dsimp only
    · rw [if_neg (by rintro rfl; exact hz rfl), a2 z (Or.inl hz)]
    · rw [if_neg (by intro h; exact hk ((Prod.mk.inj h).1 ▸ hi))]
      exact a1 i hi
    · rw [if_neg (by intro h; exact hi (Prod.mk.inj h).1), a2 (i, j) (Or.inr hi')]) (by
    rintro j m m' n n' ⟨h1, h2, h3⟩ e1 e2
    rw [e1 (k, j) rfl, e2 (k, j) rfl]
    refine ⟨h1, fun i hi => ?_, fun i hi hi' => ?_⟩
    · rw [e1 (i, j) rfl, e2 (i, j) rfl]; exact h2 i hi
    · rw [e1 (i, j) rfl, e2 (i, j) rfl]; exact h3 i hi hi') js b b' hjs h
  refine ⟨fun j hjn => (this.1 j ((hj j).2 hjn)).1, fun i hi j hjn => (this.1 j ((hj j).2 hjn)).2.1 i hi, fun i j hi hi' => ?_⟩
  by_cases hjn : j ∈ js
  · exact (this.1 j hjn).2.2 i hi hi'
  · exact this.2 (i, j) hjn

/-- The tiles of a matrix by lines: `(line, position in the line)`. -/
def lineT (axis : Coord) (m : Tiles K) : Tiles K :=
  match axis with
  | .Col => m
  | .Row => swapT m

theorem LView.lines {P : Params2} (hr : Plain P.row) (hc : Plain P.col) {r : Coord2} (h : r ∈ P.ranks) {m : Tiles K} {loc : Coord2 → Blk K}
    (hh : HoldsTiles P P.row.ntn P.col.ntn r m loc) (axis : Coord) : LView P axis r (lineT axis m) loc := by
  have := LView.of_holds hr hc h hh
  cases axis
  · exact this.swap
  · exact this

theorem LView.unlines {P : Params2} (hr : Plain P.row) (hc : Plain P.col) {r : Coord2} (h : r ∈ P.ranks) {m : Tiles K} {loc : Coord2 → Blk K}
    {axis : Coord} (hv : LView P axis r (lineT axis m) loc) : HoldsTiles P P.row.ntn P.col.ntn r m loc := by
  cases axis
  · exact LView.holds hr hc h hv.swap
  · exact LView.holds hr hc h hv

namespace TriAlg
variable {t : TriAlg K} {PA PB : Params2}

/-- The kernels do not change the size of a tile. -/
structure Keeps (t : TriAlg K) : Prop where
  acc : t.accum = false
  diag : ∀ x y z, t.diag x y = some z → z.rows = y.rows ∧ z.cols = y.cols
  upd : ∀ x w y z, t.upd x w y = some z → z.rows = y.rows ∧ z.cols = y.cols

/-- The tiles of B have the sizes of the distribution. -/
def FitB (t : TriAlg K) (PA PB : Params2) (b : Tiles K) : Prop :=
  ∀ i < (PA.get t.axis).ntn, ∀ j < (PB.get t.axis).ntn, VPanel.fits (isTall t.axis.orth) (b (i, j))
    ((PA.get t.axis).dist.global_tile_size_of i) ((PB.get t.axis).dist.global_tile_size_of j) = true

/-- ... and those of A. -/
def FitA (t : TriAlg K) (PA : Params2) (a : Tiles K) : Prop :=
  ∀ i < (PA.get t.axis).ntn, ∀ k < (PA.get t.axis).ntn, VPanel.fits (isTall t.axis) (a (i, k))
    ((PA.get t.axis).dist.global_tile_size_of k) ((PA.get t.axis.orth).dist.global_tile_size_of i) = true

theorem _root_.DLAF.VPanel.fits_congr {tall : Bool} {x y : Blk K} {a b : Int} (h : x.rows = y.rows ∧ x.cols = y.cols) :
    VPanel.fits tall x a b = VPanel.fits tall y a b := by
  unfold VPanel.fits
  rw [h.1, h.2]

/-- The iterations over `ks` lead from `b` to `b'`. -/
def Chain (t : TriAlg K) (PA PB : Params2) (a : Tiles K) : List Nat → Tiles K → Tiles K → Prop
  | [], b, b' => b' = b
  | k :: ks, b, b' => ∃ b1, t.TileStep PA PB a b b1 k ∧ Chain t PA PB a ks b1 b'

/-- The list of the trailing lines. -/
def LaterOK (t : TriAlg K) (n : Nat) (later : Nat → List Nat) : Prop :=
  ∀ k < n, (later k).Nodup ∧ k ∉ later k ∧ ∀ i < n, i ∈ later k ↔ (if t.lower then k < i else i < k)

/-- From what an iteration does to the tiles. -/
theorem TileStep.of {a b b' : Tiles K} {k : Nat} {lk : List Nat} (hk : k < (PA.get t.axis).ntn) (hA : t.FitA PA a) (hB : t.FitB PA PB b)
    (hkeep : t.Keeps) (hl : ∀ i < (PA.get t.axis).ntn, i ∈ lk ↔ (if t.lower then k < i else i < k))
    (h1 : ∀ j < (PB.get t.axis).ntn, t.diag (a (k, k)) (b (k, j)) = some (b' (k, j)))
    (h2 : ∀ i ∈ lk, ∀ j < (PB.get t.axis).ntn, t.upd (a (i, k)) (if t.linkFirst then b (k, j) else b' (k, j)) (b (i, j)) = some (b' (i, j)))
    (h3 : ∀ i j, i ≠ k → i ∉ lk → b' (i, j) = b (i, j)) : t.TileStep PA PB a b b' k ∧ t.FitB PA PB b' := by
  have hBk : ∀ j < (PB.get t.axis).ntn, (b' (k, j)).rows = (b (k, j)).rows ∧ (b' (k, j)).cols = (b (k, j)).cols :=
    fun j hj => hkeep.diag _ _ _ (h1 j hj)
  refine ⟨⟨hkeep.acc, hk, fun i hi _ => hA i hi k hk, fun j hj => ?_, h1, fun i hi hc => h2 i ((hl i hi).2 hc), fun i hi hne hc j _ =>
    h3 i j hne (fun hm => hc ((hl i hi).1 hm))⟩, fun i hi j hj => ?_⟩
  · split
    · exact hB k hk j hj
    · rw [VPanel.fits_congr (hBk j hj)]
      exact hB k hk j hj
  · by_cases hik : i = k
    · subst hik
      rw [VPanel.fits_congr (hBk j hj)]
      exact hB i hi j hj
    · by_cases hm : i ∈ lk
      · rw [VPanel.fits_congr (hkeep.upd _ _ _ _ (h2 i hm j hj))]
        exact hB i hi j hj
      · rw [h3 i j hik hm]
        exact hB i hi j hj

/-- The local solver. -/
theorem solve_chain {a : Tiles K} (hA : t.FitA PA a) (hkeep : t.Keeps) (hlf : t.linkFirst = false) {js : List Nat} (hjs : js.Nodup)
    (hj : ∀ j, j ∈ js ↔ j < (PB.get t.axis).ntn) {later : Nat → List Nat} (hl : t.LaterOK (PA.get t.axis).ntn later) :
    ∀ (ks : List Nat) (b b' : Tiles K), (∀ k ∈ ks, k < (PA.get t.axis).ntn) → t.FitB PA PB b →
      genSolve ks js later (fun k x => t.diag (a (k, k)) x) (fun i k x y => t.upd (a (i, k)) x y) b = some b' → t.Chain PA PB a ks b b'
  | [], b, b', _, _, h => by cases h; rfl
  | k :: ks, b, b', hks, hB, h => by
    unfold genSolve at h
    rw [forM'_cons, Option.bind_eq_some_iff] at h
    obtain ⟨b1, h1, h2⟩ := h
    have hk := hks k List.mem_cons_self
    obtain ⟨l1, l2, l3⟩ := hl k hk
    obtain ⟨a1, a2, a3⟩ := solve_inv (n := (PB.get t.axis).ntn) hjs hj l1 l2 (T := fun x => t.diag (a (k, k)) x)
      (G := fun i x y => t.upd (a (i, k)) x y) h1
    obtain ⟨s1, s2⟩ := TileStep.of (a := a) (b := b) (b' := b1) (lk := later k) hk hA hB hkeep l3 a1 (by rw [hlf]; exact a2) a3
    exact ⟨b1, s1, solve_chain hA hkeep hlf hjs hj hl ks b1 b' (fun q hq => hks q (List.mem_cons_of_mem _ hq)) s2 h2⟩

/-- The local multiplication. -/
theorem mult_chain {a : Tiles K} (hA : t.FitA PA a) (hkeep : t.Keeps) (hlf : t.linkFirst = true) {js : List Nat} (hjs : js.Nodup)
    (hj : ∀ j, j ∈ js ↔ j < (PB.get t.axis).ntn) {later : Nat → List Nat} (hl : t.LaterOK (PA.get t.axis).ntn later) :
    ∀ (ks : List Nat) (b b' : Tiles K), (∀ k ∈ ks, k < (PA.get t.axis).ntn) → t.FitB PA PB b →
      genMult ks js later (fun k x => t.diag (a (k, k)) x) (fun i k x y => t.upd (a (i, k)) x y) b = some b' → t.Chain PA PB a ks b b'
  | [], b, b', _, _, h => by cases h; rfl
  | k :: ks, b, b', hks, hB, h => by
    unfold genMult at h
    rw [forM'_cons, Option.bind_eq_some_iff] at h
    obtain ⟨b1, h1, h2⟩ := h
    have hk := hks k List.mem_cons_self
    obtain ⟨l1, l2, l3⟩ := hl k hk
    obtain ⟨a1, a2, a3⟩ := mult_inv (n := (PB.get t.axis).ntn) hjs hj l1 l2 (T := fun x => t.diag (a (k, k)) x)
      (G := fun i x y => t.upd (a (i, k)) x y) h1
    obtain ⟨s1, s2⟩ := TileStep.of (a := a) (b := b) (b' := b1) (lk := later k) hk hA hB hkeep l3 a1 (by rw [hlf]; exact a2) a3
    exact ⟨b1, s1, mult_chain hA hkeep hlf hjs hj hl ks b1 b' (fun q hq => hks q (List.mem_cons_of_mem _ hq)) s2 h2⟩

/-- The distributed iterations follow the chain. -/
theorem chain_runs (h : TriDist t.axis.orth PA PB) (dbg : Bool) (junk : Coord2 → Int → Nat → Nat → Nat → K) {a : Tiles K} :
    ∀ (ks : List Nat) (b b' : Tiles K), t.Chain PA PB a ks b b' →
      (t.skipLast = true → ∀ (pre : List Nat) (k : Nat) (post : List Nat), ks = pre ++ k :: post →
        ((if t.lower then (k : Int) = (PA.get t.axis).dist.nrTiles - 1 else (k : Int) = 0) ↔ post = [])) →
      ∀ (M : Coord2 → Nat → Coord2 → Blk K) (_ : ∀ r ∈ PB.ranks, LView PA t.axis r a (M r 0) ∧ LView PB t.axis r b (M r 1))
        (g : Glob (DSt K) (Blk K)) (_ : GIdle (t.env PA PB) M g),
      ∃ g' M', Runs (fun r => if r ∈ PB.ranks then (ks.map fun k : Nat => (k : Int)).flatMap fun k => t.step dbg (junk r) (PA.on r) (PB.on r) k else []) g g' ∧
        GEnd (t.env PA PB) M' g' ∧ ∀ r ∈ PB.ranks, M' r 0 = M r 0 ∧ LView PB t.axis r b' (M' r 1)
  | [], b, b', hc, _, M, hM, g, hg => by
    cases hc
    refine ⟨g, M, Runs.nil (fun r => ?_) _, hg.toEnd, fun r hr => ⟨rfl, (hM r hr).2⟩⟩
    simp
  | k :: ks, b, b', hc, hskip, M, hM, g, hg => by
    obtain ⟨b1, hT, hc⟩ := hc
    have hstep : ∀ r, t.step dbg (junk r) (PA.on r) (PB.on r) k = t.head dbg (junk r) (PA.on r) (PB.on r) k ++
        (if t.skipLast && decide (if t.lower then (k : Int) = (PA.get t.axis).dist.nrTiles - 1 else (k : Int) = 0) then []
          else t.rest dbg (PA.on r) (PB.on r) k) := by
      intro r
      unfold step head isLast
      rw [Params2.on_get, Params2.on_get]
      congr 2
      have : (if t.lower = true then decide ((k : Int) = (PA.get t.axis).dist.nrTiles - 1) else decide ((k : Int) = 0)) =
        decide (if t.lower then (k : Int) = (PA.get t.axis).dist.nrTiles - 1 else (k : Int) = 0) := by
        split <;> rfl
      rw [← this]
      rfl
    by_cases hl : (t.skipLast && decide (if t.lower then (k : Int) = (PA.get t.axis).dist.nrTiles - 1 else (k : Int) = 0)) = true
    · have hl' := hl
      rw [Bool.and_eq_true, decide_eq_true_eq] at hl'
      have hnil := (hskip hl'.1 [] k ks rfl).1 hl'.2
      subst hnil
      cases hc
      obtain ⟨g', M', h1, h2, h3⟩ := last_step h (dbg := dbg) (junk := junk) hT (fun i hi => by
        have hl2 := hl'.2
        have := hT.lt
        unfold Params.ntn at hi
        split <;> rename_i hq
        · rw [if_pos hq] at hl2; omega
        · rw [if_neg hq] at hl2; omega) hM hg
      refine ⟨g', M', h1.congr fun r => ?_, h2, fun r hr => ⟨(h3 r hr).1, (h3 r hr).2.2⟩⟩
      split
      · simp only [List.map_cons, List.map_nil, List.flatMap_cons, List.flatMap_nil, List.append_nil]
        rw [hstep r, hl, if_pos rfl, List.append_nil]
      · rfl
    · obtain ⟨g1, M1, h1, h2, h3⟩ := full_step h (dbg := dbg) (junk := junk) hT hM hg
      obtain ⟨g2, M2, e1, e2, e3⟩ := chain_runs h dbg junk ks b1 b' hc
        (fun hs pre q post hq => hskip hs (k :: pre) q post (by rw [hq]; rfl)) M1 (fun r hr => (h3 r hr).2) g1 h2
      refine ⟨g2, M2, (h1.append e1).congr fun r => ?_, e2, fun r hr => ⟨(e3 r hr).1.trans (h3 r hr).1, (e3 r hr).2⟩⟩
      split
      · simp only [List.map_cons, List.flatMap_cons]
        rw [hstep r, if_neg hl]
      · rfl

theorem dirRange_nat (up : Bool) {n : Int} (hn : 0 ≤ n) :
    dirRange up 0 n = (if up then upto 0 n.toNat else downto n.toNat 0).map fun k : Nat => (k : Int) := by
  have := irange_upto 0 n.toNat
  rw [show ((n.toNat : Nat) : Int) = n by omega] at this
  unfold dirRange downto
  cases up
  · simp only [Bool.false_eq_true, if_false]
    rw [List.map_reverse, ← this]
    rfl
  · simp only [if_true]
    exact this

/-- The state of the processes at the call. -/
theorem init_idle (h : TriDist t.axis.orth PA PB) {r : Coord2} (hr : r ∈ PB.ranks) (a b : Coord2 → Blk K) :
    ∃ x, t.init (PA.on r) (PB.on r) a b = some x ∧ DIdle (t.env PA PB) r (fun n => if n = 0 then a else b) x := by
  have hE := env_ok h
  obtain ⟨v, c1, c2⟩ := panel_create (K := K) (hE.crdP rfl 0 hr) (isTall t.axis) (PA.get t.axis).tile
  obtain ⟨w, d1, d2⟩ := panel_create (K := K) (hE.crdP rfl 1 hr) (isTall t.axis.orth) (PB.get t.axis.orth).tile
  have e1 : VPanel.create (K := K) (isTall t.axis) ((PA.on r).get t.axis.orth) ((PA.on r).get t.axis).tileSize = some v := by
    rw [Params2.on_get, Params2.on_get]; exact c1
  have e2 : VPanel.create (K := K) (isTall t.axis.orth) ((PB.on r).get t.axis.orth.orth) ((PB.on r).get t.axis.orth).tileSize = some w := by
    rw [Params2.on_get, Params2.on_get]; exact d1
  unfold init mkPanels
  rw [e1, e2]
  refine ⟨_, rfl, rfl, fun n b => ?_⟩
  rcases n with _ | n
  · exact ⟨0, _, fun _ => rfl, fun _ => rfl, le_refl _, c2⟩
  · exact ⟨0, _, fun _ => rfl, fun _ => rfl, le_refl _, d2⟩

/-- The distributed function computes the tiles at the end of the chain. -/
theorem prog_ends (h : TriDist t.axis.orth PA PB) (dbg : Bool) (junk : Coord2 → Int → Nat → Nat → Nat → K) {a b b' : Tiles K}
    (hc : t.Chain PA PB (lineT t.axis a) (if t.up then upto 0 (PA.get t.axis).ntn else downto (PA.get t.axis).ntn 0) (lineT t.axis b) (lineT t.axis b'))
    (hskip : t.skipLast = true → t.up = t.lower)
    {ma mb : Coord2 → Coord2 → Blk K} (hma : ∀ r ∈ PB.ranks, HoldsTiles PA PA.row.ntn PA.col.ntn r a (ma r))
    (hmb : ∀ r ∈ PB.ranks, HoldsTiles PB PB.row.ntn PB.col.ntn r b (mb r))
    {st : Coord2 → DSt K} (hst : ∀ r ∈ PB.ranks, t.init (PA.on r) (PB.on r) (ma r) (mb r) = some (st r)) :
    AlwaysEnds (Conf.init (fun r => if r ∈ PB.ranks then t.prog dbg (junk r) (PA.on r) (PB.on r) else []) st) fun fin =>
      ∀ r ∈ PB.ranks, HoldsTiles PB PB.row.ntn PB.col.ntn r b' ((fin r).mat 1) ∧ (fin r).mat 0 = ma r := by
  have hE := env_ok h
  let g0 : Glob (DSt K) (Blk K) := ⟨st, fun _ _ => 0, fun _ _ _ => none⟩
  let M0 : Coord2 → Nat → Coord2 → Blk K := fun r n => if n = 0 then ma r else mb r
  have hI0 : GIdle (t.env PA PB) M0 g0 := ⟨Clean.init _ _, fun r hr => by
    obtain ⟨x, h1, h2⟩ := init_idle h hr (ma r) (mb r)
    have := hst r hr
    rw [h1, Option.some.injEq] at this
    subst this
    exact h2⟩
  have hV0 : ∀ r ∈ PB.ranks, LView PA t.axis r (lineT t.axis a) (M0 r 0) ∧ LView PB t.axis r (lineT t.axis b) (M0 r 1) := fun r hr =>
    ⟨.lines h.a.row h.a.col (h.ranksA ▸ hr) (hma r hr) _, .lines h.bRow h.bCol hr (hmb r hr) _⟩
  by_cases hz : PB.row.size = 0 ∨ PB.col.size = 0
  · have hruns : Runs (fun r => if r ∈ PB.ranks then t.prog dbg (junk r) (PA.on r) (PB.on r) else []) g0 g0 := by
      refine Runs.nil (fun r => ?_) _
      unfold prog
      rw [if_pos (show (PB.on r).row.size = 0 ∨ (PB.on r).col.size = 0 from hz), ite_self]
    refine hruns.alwaysEnds fun r hr => ?_
    have hm := (hI0.all r hr).mat
    rw [show (g0.st r).mat = _ from hm]
    refine ⟨?_, rfl⟩
    intro i hi j hj
    rcases hz with hz | hz
    · have := (ntn_zero h.bRow).1 hz; omega
    · have := (ntn_zero h.bCol).1 hz; omega
  · obtain ⟨g', M', h1, h2, h3⟩ := chain_runs h dbg junk _ _ _ hc (by
      intro hs pre k post hq
      have hul := hskip hs
      have hpw : (if t.up then upto 0 (PA.get t.axis).ntn else downto (PA.get t.axis).ntn 0).Pairwise (fun x y => if t.lower then x < y else y < x) := by
        rw [hul]
        cases t.lower
        · exact List.pairwise_reverse.2 (upto_sorted 0 _)
        · exact upto_sorted 0 _
      have hmem : ∀ x, x ∈ pre ++ k :: post ↔ x < (PA.get t.axis).ntn := by
        intro x
        rw [← hq]
        split <;> simp
      rw [hq, List.pairwise_append, List.pairwise_cons] at hpw
      have hk := (hmem k).1 (by simp)
      have hkn : (PA.get t.axis).ntn = (PA.get t.axis).dist.nrTiles.toNat := rfl
      constructor
      · intro hl
        rcases post with _ | ⟨q, post⟩
        · rfl
        · have q1 := hpw.2.1.1 q List.mem_cons_self
          have q2 := (hmem q).1 (by simp)
          cases hlo : t.lower
          · rw [hlo] at q1 hl; simp at q1 hl; omega
          · rw [hlo] at q1 hl; simp at q1 hl; omega
      · rintro rfl
        cases hlo : t.lower
        · simp only [hlo, Bool.false_eq_true, if_false] at hpw ⊢
          by_contra hc
          have hx := (hmem 0).2 (by omega)
          rw [List.mem_append, List.mem_singleton] at hx
          rcases hx with hx | hx
          · have := hpw.2.2 0 hx k (by simp); omega
          · omega
        · simp only [hlo, if_true] at hpw ⊢
          by_contra hc
          have hx := (hmem ((PA.get t.axis).ntn - 1)).2 (by omega)
          rw [List.mem_append, List.mem_singleton] at hx
          rcases hx with hx | hx
          · have := hpw.2.2 _ hx k (by simp); omega
          · omega) M0 hV0 g0 hI0
    have hruns : Runs (fun r => if r ∈ PB.ranks then t.prog dbg (junk r) (PA.on r) (PB.on r) else []) g0 g' := by
      refine h1.congr fun r => ?_
      split
      · unfold prog
        rw [if_neg (show ¬ ((PB.on r).row.size = 0 ∨ (PB.on r).col.size = 0) from hz), Params2.on_get]
        show List.flatMap _ (dirRange t.up 0 (PA.get t.axis).dist.nrTiles) = _
        rw [dirRange_nat t.up (h.plainA t.axis).nrTiles_nonneg]
      · rfl
    refine hruns.alwaysEnds fun r hr => ?_
    obtain ⟨v1, v2⟩ := h3 r hr
    rw [h2.mat r hr]
    exact ⟨LView.unlines h.bRow h.bCol hr v2, v1⟩

end TriAlg
end DLAF
