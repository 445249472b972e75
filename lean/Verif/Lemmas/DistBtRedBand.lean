import Verif.Lemmas.DistBtPhases
/- One iteration of the distributed back-transformation of the reduction to band on all processes. -/
namespace DLAF
variable {K : Type*} [Field K] [StarRing K]

/-- Applying a block reflector: `W = V Tᴴ`, `W2 = Wᴴ C`, `C - V W2`; `V` is zero above row `a`. -/
theorem bt_block_matrix {V F C : Elems K} {a n ncols k : Nat} (han : a ≤ n) (hz : ∀ x < a, ∀ j < k, V x j = 0) :
    toM n ncols (fun x y => if (a ≤ x ∧ x < n) ∧ (0 ≤ y ∧ y < ncols) then C x y - ∑ l ∈ Finset.range k, V x l *
        (∑ x ∈ Finset.Ico a n, star (∑ i ∈ Finset.range k, V x i * star (F l i)) * C x y) else C x y) =
      (1 - toM n k V * toM k k F * (toM n k V).conjTranspose) * toM n ncols C := by
  ext x y
  rw [Matrix.sub_mul, Matrix.one_mul, Matrix.sub_apply, Matrix.mul_assoc, Matrix.mul_assoc]
  have e2 : ∀ l < k, (∑ x ∈ Finset.Ico a n, star (∑ i ∈ Finset.range k, V x i * star (F l i)) * C x y) =
      ∑ b ∈ Finset.range k, F l b * ∑ x ∈ Finset.range n, star (V x b) * C x y := by
    intro l hl
    have : ∀ b ∈ Finset.range k, F l b * ∑ x ∈ Finset.range n, star (V x b) * C x y =
        ∑ x ∈ Finset.Ico a n, F l b * (star (V x b) * C x y) := by
      intro b hb
      rw [Finset.mem_range] at hb
      rw [Finset.range_eq_Ico, ← Finset.sum_Ico_consecutive _ (Nat.zero_le a) han,
        Finset.sum_eq_zero (s := Finset.Ico 0 a), zero_add, Finset.mul_sum]
      intro x hx
      rw [Finset.mem_Ico] at hx
      rw [hz x hx.2 b hb, star_zero, zero_mul]
    rw [Finset.sum_congr rfl this, Finset.sum_comm]
    refine Finset.sum_congr rfl fun x _ => ?_
    rw [star_sum, Finset.sum_mul]
    refine Finset.sum_congr rfl fun b _ => ?_
    rw [star_mul', star_star]
    ring
  have e3 : (toM n k V * (toM k k F * ((toM n k V).conjTranspose * toM n ncols C))) x y =
      ∑ l ∈ Finset.range k, V x l * (∑ x ∈ Finset.Ico a n, star (∑ i ∈ Finset.range k, V x i * star (F l i)) * C x y) := by
    rw [Matrix.mul_apply, Finset.sum_range]
    refine Finset.sum_congr rfl fun l _ => ?_
    rw [e2 l l.2, Matrix.mul_apply, Finset.sum_range]
    congr 1
    refine Finset.sum_congr rfl fun b _ => ?_
    rw [Matrix.mul_apply, Finset.sum_range]
    rfl
  rw [e3]
  simp only [toM]
  by_cases hx : a ≤ (x : Nat)
  · rw [if_pos ⟨⟨hx, x.2⟩, Nat.zero_le _, y.2⟩]
  · rw [if_neg (by omega), Finset.sum_eq_zero, sub_zero]
    intro l hl
    rw [Finset.mem_range] at hl
    rw [hz x (by omega) l hl, zero_mul]

/-- Programs of local tasks. -/
theorem map_loc {S V X : Type*} (f : X → S → Option S) (xs : List X) : (xs.map f).map (Instr.loc (V := V)) = xs.map fun x => Instr.loc (f x) := by
  rw [List.map_map]; rfl

namespace DistBt
section
variable {PV : Params2} {cc : Params} {n mb nc nbc b k : Nat} {dt : Coord2 → Dist1} {V C : Elems K} {taus : Nat → K}

/-- Iteration `k`. -/
theorem step_runs (hr : Ax PV.row n mb) (hv : Ax PV.col n mb) (hc : Ax cc nc nbc) (hg : cc.grid = PV.col.grid) (hk : k * mb < n - b - 1)
    {avail : Coord2 → Nat} (ha : ∀ r, 0 < avail r) (junk : Coord2 → Int → Blk K) {g : Glob (DBtSt K) (Blk K)} (hcl : Clean PV.ranks g)
    (hb : ∀ r ∈ PV.ranks, Base PV cc n mb nc nbc b (dt r) V taus C r (g.st r)) :
    ∃ g' C', Runs (fun r => if r ∈ PV.ranks then step n mb b (avail r) (junk r) (PV.on r) ((⟨PV.row, cc⟩ : Params2).on r) (dt r) k else []) g g' ∧
      Clean PV.ranks g' ∧ (∀ r ∈ PV.ranks, Base PV cc n mb nc nbc b (dt r) V taus C' r (g'.st r)) ∧
      toM n nc C' = reflectorProd n (fun x j => storedRefl b V x (k * mb + j)) (fun j => taus (k * mb + j)) (min mb (n - b - 1 - k * mb)) * toM n nc C ∧
      ∀ x y, ¬ (x < n ∧ y < nc) → C' x y = C x y := by
  have hrr : ∀ r ∈ PV.ranks, Ax (PV.row.onRank r.row) n mb := fun r h => hr.onRank (Params2.mem_ranks.1 h .Row).1 (Params2.mem_ranks.1 h .Row).2
  have hvr : ∀ r ∈ PV.ranks, Ax (PV.col.onRank r.col) n mb := fun r h => hv.onRank (Params2.mem_ranks.1 h .Col).1 (Params2.mem_ranks.1 h .Col).2
  have hcr : ∀ r ∈ PV.ranks, Ax (cc.onRank r.col) nc nbc := fun r h => by
    have := Params2.mem_ranks.1 h .Col
    exact hc.onRank this.1 (by rw [hg]; exact this.2)
  have hroot : 0 ≤ PV.col.dist.rank_global_tile k ∧ PV.col.dist.rank_global_tile k < PV.col.grid := hv.plain.valid.wf.cyc.rank_range (by omega)
  generalize hrt : PV.col.dist.rank_global_tile k = root at hroot
  have hoff : k * mb + b < n := by omega
  -- A: panel V and local part of T
  obtain ⟨g1, r1, c1, q1⟩ := Runs.locals_ex PV.ranks_nodup hcl
    (fun r => if r.col = root then (View.tiles (PV.row.onRank r.row).dist ((k * mb + b : Nat) : Int)).map (setV n mb b (PV.on r) k) ++
        [tLocal n mb b (avail r) (junk r) (PV.on r) (dt r) k] else [])
    (fun r s' => Base PV cc n mb nc nbc b (dt r) V taus C r s' ∧ (r.col = root →
      HasRows (PV.row.onRank r.row) n mb (k * mb + b) (min mb (n - b - 1 - k * mb)) (fun x c => storedRefl b V x (k * mb + c)) s'.pV ∧
      ∃ f : Nat → Nat → K, s'.pT ((PV.col.onRank r.col).lc k) = some ⟨min mb (n - b - 1 - k * mb), min mb (n - b - 1 - k * mb), f⟩ ∧
      (∀ c < min mb (n - b - 1 - k * mb), ∀ i < c, f i c = -(taus (k * mb + c)) *
        gramAt (PV.row.onRank r.row) mb n (k * mb + b) (fun x c => storedRefl b V x (k * mb + c)) i c) ∧
      ∀ c < min mb (n - b - 1 - k * mb), ∀ i, c < i → f i c = 0)) (by
      intro r h
      by_cases ho : r.col = root
      · rw [if_pos ho]
        obtain ⟨s', p1, p2, p3⟩ := phaseA (hrr r h) (hvr r h) hk (ha r) (junk r) (by rw [hrt, ho]) (hb r h)
        exact ⟨s', p1, p2, fun _ => p3⟩
      · rw [if_neg ho]
        exact ⟨_, rfl, hb r h, fun h' => absurd h' ho⟩)
  -- B: sum of the parts of T
  obtain ⟨g2, r2, c2, q2⟩ := allReduce_tiles (P := PV) (axis := .Row) DBtSt.rT_ok c1
    (fun r _ => (nr n mb b k, nr n mb b k)) (fun _ _ => (min mb (n - b - 1 - k * mb), min mb (n - b - 1 - k * mb)))
    (fun q => if q = root then [(PV.col.onRank q).lc k] else []) (by intro q; beta_reduce; split <;> simp)
    (by intro r _ i _; rw [nr_eq hk]) (by
      intro r h i hi
      beta_reduce at hi
      by_cases ho : r.col = root
      · have e : r.get Coord.Row.orth = root := ho
        rw [e, if_pos rfl, List.mem_singleton] at hi
        obtain ⟨f, f1, _⟩ := ((q1 r h).2 ho).2
        rw [ho] at f1
        subst hi
        exact ⟨_, f1, rfl, rfl⟩
      · have e : ¬ r.get Coord.Row.orth = root := ho
        rw [if_neg e] at hi
        exact absurd hi List.not_mem_nil)
  let ts : Nat → Nat → K := fun x y => ((irange 0 (PV.get .Row).grid).map fun t =>
          ((DBtSt.rT.get (g1.st (mkRank .Row t root)) ((PV.col.onRank root).lc k)).getD (Blk.zero 0 0)).e x y).sum
  have hts : ∀ c < min mb (n - b - 1 - k * mb), ∀ i < c, ts i c = -(taus (k * mb + c)) *
      ∑ x ∈ Finset.range n, star (storedRefl b V x (k * mb + i)) * storedRefl b V x (k * mb + c) := by
    intro c hc' i hi
    have e1 : ∀ t ∈ irange 0 (PV.get .Row).grid, ((DBtSt.rT.get (g1.st (mkRank .Row t root)) ((PV.col.onRank root).lc k)).getD (Blk.zero 0 0)).e i c =
        -(taus (k * mb + c)) * ∑ i' ∈ (View.tiles (PV.row.onRank t).dist ((k * mb + b : Nat) : Int)).toFinset,
          ∑ x ∈ Finset.range (pieceOf mb n (k * mb + b) ((PV.row.onRank t).gn i')).2,
            star (storedRefl b V ((pieceOf mb n (k * mb + b) ((PV.row.onRank t).gn i')).1 + x) (k * mb + i)) *
              storedRefl b V ((pieceOf mb n (k * mb + b) ((PV.row.onRank t).gn i')).1 + x) (k * mb + c) := by
      intro t ht
      rw [mem_irange] at ht
      have hm : mkRank .Row t root ∈ PV.ranks := PV.mem_ranks' .Row ht hroot
      obtain ⟨f, f1, f2, _⟩ := ((q1 _ hm).2 rfl).2
      have : DBtSt.rT.get (g1.st (mkRank .Row t root)) ((PV.col.onRank root).lc k) = _ := f1
      rw [this]
      exact f2 c hc' i hi
    show ((irange 0 (PV.get .Row).grid).map fun t => _).sum = _
    rw [List.map_congr_left e1, List.sum_map_mul_left]
    congr 1
    have e2 := hr.sum_ranks (k * mb + b) fun t => ∑ x ∈ Finset.range (pieceOf mb n (k * mb + b) t).2,
            star (storedRefl b V ((pieceOf mb n (k * mb + b) t).1 + x) (k * mb + i)) *
              storedRefl b V ((pieceOf mb n (k * mb + b) t).1 + x) (k * mb + c)
    refine e2.trans ?_
    rw [sum_pieces hr.nb_pos hoff (fun x => star (storedRefl b V x (k * mb + i)) * storedRefl b V x (k * mb + c)), Finset.range_eq_Ico,
      ← Finset.sum_Ico_consecutive _ (Nat.zero_le (k * mb + b)) (by omega : k * mb + b ≤ n),
      Finset.sum_eq_zero (s := Finset.Ico 0 (k * mb + b)), zero_add]
    intro x hx
    rw [Finset.mem_Ico] at hx
    have : storedRefl b V x (k * mb + c) = 0 := by unfold storedRefl; rw [if_pos (by omega)]
    rw [this, mul_zero]
  have hlow : ∀ c < min mb (n - b - 1 - k * mb), ∀ i, c < i → ts i c = 0 := by
    intro c hc' i hi
    show ((irange 0 (PV.get .Row).grid).map fun t => _).sum = _
    refine List.sum_eq_zero fun x hx => ?_
    obtain ⟨t, ht, rfl⟩ := List.mem_map.1 hx
    rw [mem_irange] at ht
    have hm : mkRank .Row t root ∈ PV.ranks := PV.mem_ranks' .Row ht hroot
    obtain ⟨f, f1, _, f3⟩ := ((q1 _ hm).2 rfl).2
    have : DBtSt.rT.get (g1.st (mkRank .Row t root)) ((PV.col.onRank root).lc k) = _ := f1
    rw [this]
    exact f3 c hc' i hi
  obtain ⟨F, F1, F2⟩ := copyDiagTrmv_spec (taus := tausBlk mb n b k taus)
    (t := ⟨min mb (n - b - 1 - k * mb), min mb (n - b - 1 - k * mb), ts⟩)
    (G := fun i c => ∑ x ∈ Finset.range n, star (storedRefl b V x (k * mb + i)) * storedRefl b V x (k * mb + c)) hts hlow
  have hmat := tfactor_matrix (V := fun x j => storedRefl b V x (k * mb + j)) F2
  dsimp only at F1 F2 hmat
  -- what the processes hold after B
  have q2' : ∀ r ∈ PV.ranks, Base PV cc n mb nc nbc b (dt r) V taus C r (g2.st r) ∧ (r.col = root →
      HasRows (PV.row.onRank r.row) n mb (k * mb + b) (min mb (n - b - 1 - k * mb)) (fun x c => storedRefl b V x (k * mb + c)) (g2.st r).pV ∧
      (g2.st r).pT ((PV.col.onRank r.col).lc k) = some ⟨min mb (n - b - 1 - k * mb), min mb (n - b - 1 - k * mb), ts⟩) := by
    intro r h
    obtain ⟨p, p1, p2, _⟩ := q2 r h
    obtain ⟨w1, w2⟩ := q1 r h
    rw [p1]
    refine ⟨⟨w1.c, w1.v, w1.tau⟩, fun ho => ⟨(w2 ho).1, ?_⟩⟩
    have e : r.get Coord.Row.orth = root := ho
    obtain ⟨f, f1, f2⟩ := p2 ((PV.col.onRank r.col).lc k) (by rw [e, if_pos rfl, ho]; exact List.mem_singleton.2 rfl)
    have hf : f = ts := by
      funext x y
      rw [f2 x y, e, ho]
    rw [← hf]
    exact f1
  -- C: end of T, panel W, zero W2
  obtain ⟨g3, r3, c3, q3⟩ := Runs.locals_ex PV.ranks_nodup c2
    (fun r => (if r.col = root then [tFinish n mb b (PV.on r) (dt r) k] ++
        (View.tiles (PV.row.onRank r.row).dist ((k * mb + b : Nat) : Int)).map (setW n mb b (junk r) (PV.on r) k) else []) ++
        (View.tiles (cc.onRank r.col).dist ((0 : Nat) : Int)).map (zeroW2 n mb b ((⟨PV.row, cc⟩ : Params2).on r) k))
    (fun r s' => Base PV cc n mb nc nbc b (dt r) V taus C r s' ∧
      HasCols (cc.onRank r.col) nc nbc (min mb (n - b - 1 - k * mb)) (fun _ _ => 0) s'.pW2 ∧ (r.col = root →
      HasRows (PV.row.onRank r.row) n mb (k * mb + b) (min mb (n - b - 1 - k * mb)) (fun x c => storedRefl b V x (k * mb + c)) s'.pV ∧
      HasRows (PV.row.onRank r.row) n mb (k * mb + b) (min mb (n - b - 1 - k * mb))
        (fun x c => ∑ l ∈ Finset.range (min mb (n - b - 1 - k * mb)), storedRefl b V x (k * mb + l) * star (F c l)) s'.pW)) (by
      intro r h
      obtain ⟨w1, w2⟩ := q2' r h
      by_cases ho : r.col = root
      · rw [if_pos ho]
        obtain ⟨s1, p1, p2, p3, p4⟩ := phaseC1 (hrr r h) (hvr r h) hk (junk r) (by rw [hrt, ho]) w1 (w2 ho).1 (w2 ho).2 rfl F1 F2.low
        obtain ⟨s2, p5, ⟨e1, e2, e3, e4, e5⟩, p6⟩ := phaseC2 (hrr r h) (hcr r h) hk (s := s1)
        refine ⟨s2, by rw [runLocs_append, p1, Option.bind_some, p5], ⟨by rw [e1]; exact p2.c, by rw [e2]; exact p2.v, by rw [e3]; exact p2.tau⟩, p6,
          fun _ => ⟨by rw [e4]; exact p3, by rw [e5]; exact p4⟩⟩
      · rw [if_neg ho]
        obtain ⟨s2, p5, ⟨e1, e2, e3, e4, e5⟩, p6⟩ := phaseC2 (hrr r h) (hcr r h) hk (s := g2.st r)
        exact ⟨s2, p5, ⟨by rw [e1]; exact w1.c, by rw [e2]; exact w1.v, by rw [e3]; exact w1.tau⟩, p6, fun h' => absurd h' ho⟩)
  -- D: broadcast of W
  obtain ⟨g4, r4, c4, q4⟩ := bcast_tiles (P := PV) (axis := .Col) DBtSt.rW_ok c3 (root := root) hroot
    (fun r => vSize n mb b (PV.on r) k) (fun q i => ((pieceOf mb n (k * mb + b) ((PV.row.onRank q).gn i)).2, min mb (n - b - 1 - k * mb)))
    (fun q => View.tiles (PV.row.onRank q).dist ((k * mb + b : Nat) : Int)) (fun r h i hi => vSize_eq (hrr r h) hk hi) (by
      intro r h ho i hi
      obtain ⟨w, w1, w2⟩ := ((q3 r h).2.2 ho).2 i hi
      exact ⟨w, w1, w2.1, w2.2.1⟩)
  have q4' : ∀ r ∈ PV.ranks, Base PV cc n mb nc nbc b (dt r) V taus C r (g4.st r) ∧
      HasCols (cc.onRank r.col) nc nbc (min mb (n - b - 1 - k * mb)) (fun _ _ => 0) (g4.st r).pW2 ∧ (r.col = root →
      HasRows (PV.row.onRank r.row) n mb (k * mb + b) (min mb (n - b - 1 - k * mb)) (fun x c => storedRefl b V x (k * mb + c)) (g4.st r).pV) ∧
      HasRows (PV.row.onRank r.row) n mb (k * mb + b) (min mb (n - b - 1 - k * mb))
        (fun x c => ∑ l ∈ Finset.range (min mb (n - b - 1 - k * mb)), storedRefl b V x (k * mb + l) * star (F c l)) (g4.st r).pW := by
    intro r h
    obtain ⟨p, p1, p2, _⟩ := q4 r h
    obtain ⟨w1, w2, w3⟩ := q3 r h
    rw [p1]
    refine ⟨⟨w1.c, w1.v, w1.tau⟩, w2, fun ho => (w3 ho).1, fun i hi => ?_⟩
    have hm : mkRank .Col root r.row ∈ PV.ranks := mkRank_mem (axis := .Col) h hroot.1 hroot.2
    obtain ⟨w, a1, a2⟩ := ((q3 _ hm).2.2 rfl).2 i hi
    exact ⟨w, (p2 i hi).trans a1, a2⟩
  -- E: local part of W2
  obtain ⟨g5, r5, c5, q5⟩ := Runs.locals_ex PV.ranks_nodup c4
    (fun r => (cTiles mb b ((⟨PV.row, cc⟩ : Params2).on r) k).map (addW2 n mb b ((⟨PV.row, cc⟩ : Params2).on r) k))
    (fun r s' => Base PV cc n mb nc nbc b (dt r) V taus C r s' ∧ (r.col = root →
      HasRows (PV.row.onRank r.row) n mb (k * mb + b) (min mb (n - b - 1 - k * mb)) (fun x c => storedRefl b V x (k * mb + c)) s'.pV) ∧
      HasCols (cc.onRank r.col) nc nbc (min mb (n - b - 1 - k * mb)) (fun l y =>
        ∑ i ∈ (View.tiles (PV.row.onRank r.row).dist ((k * mb + b : Nat) : Int)).toFinset,
          ∑ x ∈ Finset.range (pieceOf mb n (k * mb + b) ((PV.row.onRank r.row).gn i)).2,
            star (∑ l' ∈ Finset.range (min mb (n - b - 1 - k * mb)),
              storedRefl b V ((pieceOf mb n (k * mb + b) ((PV.row.onRank r.row).gn i)).1 + x) (k * mb + l') * star (F l l')) *
              C ((pieceOf mb n (k * mb + b) ((PV.row.onRank r.row).gn i)).1 + x) y) s'.pW2) (by
      intro r h
      obtain ⟨w1, w2, w3, w4⟩ := q4' r h
      obtain ⟨s', p1, ⟨e1, e2, e3, e4⟩, p2⟩ := phaseE (hrr r h) (hcr r h) hk w1 w4 w2
      exact ⟨s', p1, ⟨by rw [e1]; exact w1.c, by rw [e2]; exact w1.v, by rw [e3]; exact w1.tau⟩, fun ho => by rw [e4]; exact w3 ho, p2⟩)
  -- F: sum of W2
  obtain ⟨g6, r6, c6, q6⟩ := allReduce_tiles (P := PV) (axis := .Row) DBtSt.rW2_ok c5
    (fun r => w2Size n mb b ((⟨PV.row, cc⟩ : Params2).on r) k) (fun q j => (min mb (n - b - 1 - k * mb), min nbc (nc - (cc.onRank q).gn j * nbc)))
    (fun q => View.tiles (cc.onRank q).dist ((0 : Nat) : Int)) (fun q => view_nodup _ _)
    (fun r h j hj => w2Size_eq (PV := PV) (hcr r h) hk hj) (by
      intro r h j hj
      obtain ⟨w, w1, w2⟩ := (q5 r h).2.2 j hj
      exact ⟨w, w1, w2.1, w2.2.1⟩)
  have q6' : ∀ r ∈ PV.ranks, Base PV cc n mb nc nbc b (dt r) V taus C r (g6.st r) ∧ (r.col = root →
      HasRows (PV.row.onRank r.row) n mb (k * mb + b) (min mb (n - b - 1 - k * mb)) (fun x c => storedRefl b V x (k * mb + c)) (g6.st r).pV) ∧
      HasCols (cc.onRank r.col) nc nbc (min mb (n - b - 1 - k * mb)) (fun l y => ∑ x ∈ Finset.Ico (k * mb + b) n,
        star (∑ i ∈ Finset.range (min mb (n - b - 1 - k * mb)), storedRefl b V x (k * mb + i) * star (F l i)) * C x y) (g6.st r).pW2 := by
    intro r h
    obtain ⟨p, p1, p2, _⟩ := q6 r h
    obtain ⟨w1, w2, _⟩ := q5 r h
    rw [p1]
    refine ⟨⟨w1.c, w1.v, w1.tau⟩, w2, fun j hj => ?_⟩
    obtain ⟨f, f1, f2⟩ := p2 j hj
    refine ⟨_, f1, rfl, rfl, fun x hx y hy => ?_⟩
    show f x y = _
    rw [f2 x y]
    have e1 : ∀ t ∈ irange 0 (PV.get .Row).grid, ((DBtSt.rW2.get (g5.st (mkRank .Row t (r.get Coord.Row.orth))) j).getD (Blk.zero 0 0)).e x y =
        ∑ i' ∈ (View.tiles (PV.row.onRank t).dist ((k * mb + b : Nat) : Int)).toFinset,
          ∑ x' ∈ Finset.range (pieceOf mb n (k * mb + b) ((PV.row.onRank t).gn i')).2,
            star (∑ l' ∈ Finset.range (min mb (n - b - 1 - k * mb)),
              storedRefl b V ((pieceOf mb n (k * mb + b) ((PV.row.onRank t).gn i')).1 + x') (k * mb + l') * star (F (0 + x) l')) *
              C ((pieceOf mb n (k * mb + b) ((PV.row.onRank t).gn i')).1 + x') ((cc.onRank r.col).gn j * nbc + y) := by
      intro t ht
      rw [mem_irange] at ht
      have hm : mkRank .Row t (r.get Coord.Row.orth) ∈ PV.ranks := mkRank_mem (axis := .Row) h ht.1 ht.2
      obtain ⟨u, u1, u2⟩ := (q5 _ hm).2.2 j hj
      have : DBtSt.rW2.get (g5.st (mkRank .Row t (r.get Coord.Row.orth))) j = _ := u1
      rw [this]
      exact u2.2.2 x hx y hy
    rw [List.map_congr_left e1]
    have e2 := hr.sum_ranks (k * mb + b) fun t => ∑ x' ∈ Finset.range (pieceOf mb n (k * mb + b) t).2,
            star (∑ l' ∈ Finset.range (min mb (n - b - 1 - k * mb)),
              storedRefl b V ((pieceOf mb n (k * mb + b) t).1 + x') (k * mb + l') * star (F (0 + x) l')) *
              C ((pieceOf mb n (k * mb + b) t).1 + x') ((cc.onRank r.col).gn j * nbc + y)
    refine e2.trans ?_
    exact sum_pieces hr.nb_pos hoff (fun x' => star (∑ l' ∈ Finset.range (min mb (n - b - 1 - k * mb)),
              storedRefl b V x' (k * mb + l') * star (F (0 + x) l')) * C x' ((cc.onRank r.col).gn j * nbc + y))
  -- G: broadcast of V
  obtain ⟨g7, r7, c7, q7⟩ := bcast_tiles (P := PV) (axis := .Col) DBtSt.rV_ok c6 (root := root) hroot
    (fun r => vSize n mb b (PV.on r) k) (fun q i => ((pieceOf mb n (k * mb + b) ((PV.row.onRank q).gn i)).2, min mb (n - b - 1 - k * mb)))
    (fun q => View.tiles (PV.row.onRank q).dist ((k * mb + b : Nat) : Int)) (fun r h i hi => vSize_eq (hrr r h) hk hi) (by
      intro r h ho i hi
      obtain ⟨w, w1, w2⟩ := (q6' r h).2.1 ho i hi
      exact ⟨w, w1, w2.1, w2.2.1⟩)
  have q7' : ∀ r ∈ PV.ranks, Base PV cc n mb nc nbc b (dt r) V taus C r (g7.st r) ∧
      HasRows (PV.row.onRank r.row) n mb (k * mb + b) (min mb (n - b - 1 - k * mb)) (fun x c => storedRefl b V x (k * mb + c)) (g7.st r).pV ∧
      HasCols (cc.onRank r.col) nc nbc (min mb (n - b - 1 - k * mb)) (fun l y => ∑ x ∈ Finset.Ico (k * mb + b) n,
        star (∑ i ∈ Finset.range (min mb (n - b - 1 - k * mb)), storedRefl b V x (k * mb + i) * star (F l i)) * C x y) (g7.st r).pW2 := by
    intro r h
    obtain ⟨p, p1, p2, _⟩ := q7 r h
    obtain ⟨w1, w2, w3⟩ := q6' r h
    rw [p1]
    refine ⟨⟨w1.c, w1.v, w1.tau⟩, fun i hi => ?_, w3⟩
    have hm : mkRank .Col root r.row ∈ PV.ranks := mkRank_mem (axis := .Col) h hroot.1 hroot.2
    obtain ⟨w, a1, a2⟩ := (q6' _ hm).2.1 rfl i hi
    exact ⟨w, (p2 i hi).trans a1, a2⟩
  -- H: update of C
  obtain ⟨g8, r8, c8, q8⟩ := Runs.locals_ex PV.ranks_nodup c7
    (fun r => (cTiles mb b ((⟨PV.row, cc⟩ : Params2).on r) k).map (subC mb b ((⟨PV.row, cc⟩ : Params2).on r) k) ++
      [fun s => some (DBtSt.rT.reset (DBtSt.rW2.reset (DBtSt.rW.reset (DBtSt.rV.reset s))))])
    (fun r s' => Base PV cc n mb nc nbc b (dt r) V taus (fun x y => if (k * mb + b ≤ x ∧ x < n) ∧ (0 ≤ y ∧ y < nc) then
          C x y - ∑ l ∈ Finset.range (min mb (n - b - 1 - k * mb)), storedRefl b V x (k * mb + l) * (∑ x ∈ Finset.Ico (k * mb + b) n,
        star (∑ i ∈ Finset.range (min mb (n - b - 1 - k * mb)), storedRefl b V x (k * mb + i) * star (F l i)) * C x y) else C x y) r s') (by
      intro r h
      obtain ⟨w1, w2, w3⟩ := q7' r h
      obtain ⟨s', p1, p2⟩ := phaseH (hrr r h) (hcr r h) hk w1 w2 w3
      have hrun := runLocs_append ((cTiles mb b ((⟨PV.row, cc⟩ : Params2).on r) k).map (subC mb b ((⟨PV.row, cc⟩ : Params2).on r) k))
        [fun s => some (DBtSt.rT.reset (DBtSt.rW2.reset (DBtSt.rW.reset (DBtSt.rV.reset s))))] (g7.st r)
      rw [p1, Option.bind_some, runLocs_one] at hrun
      exact ⟨_, hrun, ⟨p2.c, p2.v, p2.tau⟩⟩)
  refine ⟨g8, _, ((((((((r1.append r2).append r3).append r4).append r5).append r6).append r7).append r8)).congr fun r => ?_, c8, q8, ?_, ?_⟩
  · by_cases h : r ∈ PV.ranks
    · simp only [if_pos h]
      have e1 : rootCol (PV.on r) k = root := hrt
      have e2 : (PV.on r).col.rank = r.col := rfl
      have e3 : View.tiles (PV.on r).row (off mb b k) = View.tiles (PV.row.onRank r.row).dist ((k * mb + b : Nat) : Int) := by rw [off_eq]; rfl
      have e4 : View.tiles ((⟨PV.row, cc⟩ : Params2).on r).col 0 = View.tiles (cc.onRank r.col).dist ((0 : Nat) : Int) := rfl
      have e5 : (PV.on r).row.grid = (PV.get .Row).grid := rfl
      have e6 : r.get Coord.Row.orth = r.col := rfl
      have e7 : r.get Coord.Col.orth = r.row := rfl
      have e8 : tIdx (PV.on r) k = (PV.col.onRank r.col).lc k := rfl
      unfold step
      dsimp only
      rw [e1, e2, e3, e4, e5, e6, e7, e8]
      by_cases ho : r.col = root
      · simp only [if_pos ho, List.map_append, map_loc, List.append_assoc, List.map_cons, List.map_nil]
      · simp only [if_neg ho, List.map_append, map_loc, List.append_assoc, List.map_nil, List.nil_append, List.map_cons]
        have : (if 1 < (PV.get .Row).grid then allReduceTiles .Row (PV.on r) (DBtSt.rT (K := K)) (fun _ => (nr n mb b k, nr n mb b k)) [] else []) = [] := by
          split <;> rfl
        rw [this, List.nil_append]
    · simp only [if_neg h, List.append_nil]
  · refine Eq.trans ?_ (congrArg (· * toM n nc C) hmat)
    exact bt_block_matrix (V := fun x j => storedRefl b V x (k * mb + j)) (F := F) (by omega) (by
      intro x hx j _
      beta_reduce
      unfold storedRefl
      rw [if_pos (by omega)])
  · intro x y hxy
    exact if_neg (by omega)

end
end DistBt
end DLAF
