import Verif.Model.DistLeaf
import Verif.Lemmas.AssembleZ
import Verif.Lemmas.RefWin
import Verif.Lemmas.DcLeaf
/- C71: the leaves of the distributed divide & conquer solver. -/
namespace DLAF
namespace DistLeaf
open DistZ

/-- The owner works and sends to all processes. -/
theorem full_bcast {S V : Type*} {P : Params2} {ow : Coord2} (hmem : ow ∈ P.ranks) {c : Glob S V} (hcl : Clean P.ranks c) (p : Coord2 → List (Instr S V))
    (work : S → S) (get : S → V) (put : S → V → Option S) (s' : Coord2 → S)
    (hp : ∀ r ∈ P.ranks, p r = if ow = r then [.loc fun s => some (work s)] ++
        (if 1 < P.row.grid * P.col.grid then bcastSend (.full P.col.grid) (ow.row * P.col.grid + ow.col) fun s => some (s, get s) else [])
      else bcastRecv (.full P.col.grid) (ow.row * P.col.grid + ow.col) put)
    (hout : ∀ r, r ∉ P.ranks → p r = []) (hw : work (c.st ow) = s' ow) (hput : ∀ r ∈ P.ranks, r ≠ ow → put (c.st r) (get (s' ow)) = some (s' r)) :
    ∃ c', Runs p c c' ∧ Clean P.ranks c' ∧ ∀ r ∈ P.ranks, c'.st r = s' r := by
  have hoc : 0 ≤ ow.col ∧ ow.col < P.col.grid := Params2.mem_ranks.1 hmem .Col
  have hrk : (Chan.full P.col.grid).rankOf (ow.row * P.col.grid + ow.col) = ow := by
    obtain ⟨a, b⟩ := ow
    have hg : P.col.grid ≠ 0 := by dsimp only at hoc; omega
    simp only [Chan.rankOf, Coord2.mk.injEq]
    dsimp only at hoc
    rw [Int.add_comm, Int.add_mul_ediv_right _ _ hg, Int.ediv_eq_zero_of_lt hoc.1 hoc.2, Int.add_mul_emod_self_right, Int.emod_eq_of_lt hoc.1 hoc.2]
    omega
  let c1 : Glob S V := { c with st := fun r => if r ∈ [ow] then s' ow else c.st r }
  have r1 : Runs (fun r => if r ∈ [ow] then [.loc fun s => some (work s)] else []) c c1 := by
    refine Runs.loc (by simp) (fun _ s => some (work s)) (fun _ => s' ow) (fun r => rfl) fun r hro => ?_
    rw [List.mem_singleton] at hro
    subst hro
    rw [hw]
  have hc1 : Clean P.ranks c1 := ⟨hcl.agree, hcl.fresh⟩
  have hst1 : ∀ r, c1.st r = if r = ow then s' ow else c.st r := by
    intro r
    show (if r ∈ [ow] then s' ow else c.st r) = _
    simp only [List.mem_singleton]
  by_cases hg : 1 < P.row.grid * P.col.grid
  · obtain ⟨c', u1, u2, u3⟩ := bcast_phase P.ranks_nodup hc1
      (p := fun r => if r ∈ P.ranks then (if r = ow then bcastSend (Chan.full P.col.grid) (ow.row * P.col.grid + ow.col) fun s => some (s, get s) else
        bcastRecv (Chan.full P.col.grid) (ow.row * P.col.grid + ow.col) put) else [])
      (fun _ => some (Chan.full P.col.grid)) (ow.row * P.col.grid + ow.col)
      (fun _ s => some (s, get s)) (fun _ => put) s' (fun _ => get (s' ow))
      (fun r hrr => by
        beta_reduce
        rw [if_pos hrr]
        simp only [hrk])
      (fun r hrr => if_neg hrr)
      (fun r hrr ch hch => by
        obtain rfl := Option.some.inj hch
        exact ⟨rfl, fun s _ _ => rfl⟩)
      (fun r hrr ch hch => by
        obtain rfl := Option.some.inj hch
        rw [hrk]
        exact hmem)
      (fun r hrr ch hch he => by
        obtain rfl := Option.some.inj hch
        rw [hrk] at he
        beta_reduce
        rw [hst1 r, if_pos he, he])
      (fun r hrr ch hch he => by
        obtain rfl := Option.some.inj hch
        rw [hrk] at he
        beta_reduce
        rw [hst1 r, if_neg he]
        exact hput r hrr he)
    refine ⟨c', (r1.append u1).congr fun r => ?_, u2, fun r hrr => ?_⟩
    · by_cases hrr : r ∈ P.ranks
      · rw [hp r hrr]
        simp only [if_pos hrr]
        by_cases h : r = ow
        · rw [if_pos h.symm, if_pos hg, if_pos (show r ∈ [ow] by simp [h]), if_pos h]
        · rw [if_neg (fun z => h z.symm), if_neg (show r ∉ [ow] by simp [h]), if_neg h, List.nil_append]
      · have : r ∉ [ow] := fun z => hrr (by rw [List.mem_singleton.1 z]; exact hmem)
        simp only [if_neg hrr, if_neg this]
        rw [hout r hrr]
        rfl
    · rw [u3 r, if_pos ⟨hrr, rfl⟩]
  · have hone : ∀ r ∈ P.ranks, r = ow := fun r hrr => one_process hg hrr hmem
    refine ⟨c1, r1.congr fun r => ?_, hc1, fun r hrr => ?_⟩
    · by_cases hrr : r ∈ P.ranks
      · have h := hone r hrr
        rw [hp r hrr, if_pos h.symm, if_neg hg, List.append_nil, if_pos (show r ∈ [ow] by simp [h])]
      · have : r ∉ [ow] := fun z => hrr (by rw [List.mem_singleton.1 z]; exact hmem)
        simp only [if_neg this]
        exact hout r hrr
    · rw [hst1 r, if_pos (hone r hrr), hone r hrr]

section
variable {P : Params2} {n nb : Nat} (hr : Ax P.row n nb) (hc : Ax P.col n nb) {D : DcPar} {junk : Nat → Nat → ℝ} {E dd : Nat → ℝ} {z : Elems ℝ}

/-- The leaves of the local algorithm before `t`. -/
noncomputable def LF (D : DcPar) (nb n : Nat) (E dd : Nat → ℝ) (z : Elems ℝ) (t : Nat) : (Nat → ℝ) × Elems ℝ :=
  (upto 0 t).foldl (fun x i => solveLeaf D nb n E i x) (dd, z)

theorem LF_succ (t : Nat) : LF D nb n E dd z (t + 1) = solveLeaf D nb n E t (LF D nb n E dd z t) := by
  unfold LF
  rw [upto_succ (by omega), List.foldl_append, List.foldl_cons, List.foldl_nil]

/-- What the processes hold before tile `t`. -/
def Inv (P : Params2) (D : DcPar) (nb n : Nat) (E dd : Nat → ℝ) (z : Elems ℝ) (t : Nat) (r : Coord2) (s : DLSt) : Prop :=
  s.d = (LF D nb n E dd z t).1 ∧ (∀ x, t * nb ≤ x → s.e x = E x) ∧ HoldsLoc P r s.q (LF D nb n E dd z t).2

theorem zBegin_eq (hc : Ax P.col n nb) {t : Nat} (ht : t * nb < n) (r : Coord2) : zBegin (P.on r) t = t * nb := by
  have := Ax.tile_begin hc ht
  unfold zBegin
  show (P.col.dist.global_element_from_global_tile_and_tile_element t 0).toNat = _
  omega

theorem zLen_eq (hc : Ax P.col n nb) {t : Nat} (ht : t * nb < n) (r : Coord2) : zLen (P.on r) t = tileN nb n t := by
  have := Ax.tile_len hc ht
  unfold zLen tileN
  show (P.col.dist.global_tile_size_of t).toNat = _
  omega

/-- Local position of an element in the window of tile `t`. -/
theorem pos_window {p : Params} (h : Ax p n nb) {t : Nat} (ht : t * nb < n) (how : p.dist.rank_global_tile t = p.rank) {x : Nat} (hx : x < n) (hox : p.owner x = p.rank) :
    let x0 := p.dist.local_element_from_local_tile_and_tile_element (p.dist.local_tile_from_global_tile t) 0
    ((x0 ≤ p.localPos x ∧ p.localPos x < x0 + tileN nb n t) ↔ t * nb ≤ x ∧ x < t * nb + tileN nb n t) ∧
      (t * nb ≤ x ∧ x < t * nb + tileN nb n t → (p.localPos x - x0).toNat = x - t * nb) := by
  intro x0
  have hp := h.nb_pos
  have key : ∀ y : Nat, t * nb ≤ y ∧ y < t * nb + tileN nb n t → p.owner y = p.rank ∧ p.localPos y = x0 + ((y - t * nb : Nat) : Int) := by
    intro y hy
    obtain ⟨yn, yt⟩ := (div_iff (n := n) hp).1 hy
    have oy : p.owner y = p.rank := by
      have := Ax.owner_tile h y
      rw [yt, how] at this
      exact this.symm
    refine ⟨oy, ?_⟩
    rw [Ax.pos h yn oy, yt]
    have hm : y % nb = y - t * nb := by
      have := Nat.div_add_mod y nb
      rw [yt, Nat.mul_comm] at this
      omega
    rw [hm]
    exact loc_add p.dist _ _
  have h1 : (x0 ≤ p.localPos x ∧ p.localPos x < x0 + tileN nb n t) ↔ t * nb ≤ x ∧ x < t * nb + tileN nb n t := by
    constructor
    · intro hw
      obtain ⟨k, hk⟩ : ∃ k : Nat, p.localPos x = x0 + k := ⟨(p.localPos x - x0).toNat, by omega⟩
      have h2 := key (t * nb + k) (by omega)
      rw [show t * nb + k - t * nb = k by omega, ← hk] at h2
      have := localPos_inj (p := p) (x := (x : Int)) (y := ((t * nb + k : Nat) : Int)) (by omega) (by omega) (by rw [h2.1, hox]) h2.2.symm
      omega
    · intro hw
      have := (key x hw).2
      omega
  refine ⟨h1, fun hw => ?_⟩
  have := (key x hw).2
  omega

include hr hc in
/-- The owner's part. -/
theorem stedc_ok {t : Nat} (ht : t * nb < n) {r : Coord2} (hrr : r ∈ P.ranks) (how : (⟨P.row.dist.rank_global_tile t, P.col.dist.rank_global_tile t⟩ : Coord2) = r)
    {s : DLSt} (hs : Inv P D nb n E dd z t r s) : Inv P D nb n E dd z (t + 1) r (stedcTile D junk (P.on r) t s) := by
  have hp := hr.nb_pos
  obtain ⟨h1, h2, h3⟩ := hs
  have mr := Params2.mem_ranks.1 hrr .Row
  have mc := Params2.mem_ranks.1 hrr .Col
  have vr : Ax (P.row.onRank r.row) n nb := hr.onRank mr.1 mr.2
  have vc : Ax (P.col.onRank r.col) n nb := hc.onRank mc.1 mc.2
  have ha : D.stedc (zLen (P.on r) t) (shF s.d (zBegin (P.on r) t)) (shF s.e (zBegin (P.on r) t)) =
      D.stedc (tileN nb n t) (shF (LF D nb n E dd z t).1 (t * nb)) (shF E (t * nb)) := by
    rw [zBegin_eq hc ht, zLen_eq hc ht, h1]
    congr 1
    funext x
    exact h2 _ (by omega)
  unfold stedcTile
  dsimp only
  rw [ha, zBegin_eq hc ht, zLen_eq hc ht, h1]
  refine ⟨?_, fun x hx => ?_, fun x y hx hy ox oy => ?_⟩
  · rw [LF_succ]
    rfl
  · have : (t + 1) * nb = t * nb + nb := by rw [Nat.add_mul, Nat.one_mul]
    show putF s.e (t * nb) (tileN nb n t) (junk (t * nb)) x = _
    unfold putF tileN
    rw [if_neg (by omega)]
    exact h2 x (by omega)
  · have xr := pos_window vr ht (congrArg Coord2.row how) (x := x) (by have := hr.size; omega) ox
    have yr := pos_window vc ht (congrArg Coord2.col how) (x := y) (by have := hc.size; omega) oy
    rw [LF_succ]
    unfold solveLeaf putE
    dsimp only
    refine (if_congr (and_congr xr.1 yr.1) rfl rfl).trans ?_
    split
    · rename_i hw
      have e1 := xr.2 hw.1
      have e2 := yr.2 hw.2
      exact congrArg₂ (D.stedc (tileN nb n t) (shF (LF D nb n E dd z t).1 (t * nb)) (shF E (t * nb))).2 e1 e2
    · exact h3 x y hx hy ox oy

include hr hc in
/-- One tile. -/
theorem leaf_step {t : Nat} (ht : t * nb < n) {c : Glob DLSt Tri} (hcl : Clean P.ranks c) (hs : ∀ r ∈ P.ranks, Inv P D nb n E dd z t r (c.st r)) :
    ∃ c', Runs (fun r => if r ∈ P.ranks then leafTile D junk (P.on r) t else []) c c' ∧ Clean P.ranks c' ∧ ∀ r ∈ P.ranks, Inv P D nb n E dd z (t + 1) r (c'.st r) := by
  have hp := hr.nb_pos
  obtain ⟨ow, how⟩ : ∃ ow : Coord2, (⟨P.row.dist.rank_global_tile t, P.col.dist.rank_global_tile t⟩ : Coord2) = ow := ⟨_, rfl⟩
  have hmem : ow ∈ P.ranks := by
    refine Params2.mem_ranks.2 fun co => ?_
    rw [← how]
    cases co
    · have := (C01_element_owner hr.plain.valid (e := ((t * nb : Nat) : Int)) (by omega) (by rw [hr.size]; omega)).1
      rw [← Ax.owner_tile hr, Nat.mul_div_cancel _ hp] at this
      exact this
    · have := (C01_element_owner hc.plain.valid (e := ((t * nb : Nat) : Int)) (by omega) (by rw [hc.size]; omega)).1
      rw [← Ax.owner_tile hc, Nat.mul_div_cancel _ hp] at this
      exact this
  have hI := stedc_ok hr hc (junk := junk) ht hmem how (hs ow hmem)
  obtain ⟨c', u1, u2, u3⟩ := full_bcast hmem hcl (fun r => if r ∈ P.ranks then leafTile D junk (P.on r) t else [])
    (stedcTile D junk (P.on ow) t) (fun s => (tileN nb n t, shF s.d (t * nb), shF s.e (t * nb)))
    (fun s v => if v.1 = tileN nb n t then some { s with d := putF s.d (t * nb) (tileN nb n t) v.2.1, e := putF s.e (t * nb) (tileN nb n t) v.2.2 } else none)
    (fun r => if r = ow then stedcTile D junk (P.on ow) t (c.st ow) else
      { c.st r with d := putF (c.st r).d (t * nb) (tileN nb n t) (shF (stedcTile D junk (P.on ow) t (c.st ow)).d (t * nb)),
                    e := putF (c.st r).e (t * nb) (tileN nb n t) (shF (stedcTile D junk (P.on ow) t (c.st ow)).e (t * nb)) })
    (fun r hrr => by
      beta_reduce
      rw [if_pos hrr]
      unfold leafTile
      dsimp only
      rw [zBegin_eq hc ht, zLen_eq hc ht]
      have e0 : (⟨(P.on r).row.rank_global_tile t, (P.on r).col.rank_global_tile t⟩ : Coord2) = ow := how
      have e0r : (P.on r).row.rank_global_tile t = ow.row := congrArg Coord2.row how
      have e0c : (P.on r).col.rank_global_tile t = ow.col := congrArg Coord2.col how
      have e1 : (P.on r).row.grid * (P.on r).col.grid = P.row.grid * P.col.grid := rfl
      have e2 : (P.on r).col.grid = P.col.grid := rfl
      have e3 : (⟨(P.on r).row.rank, (P.on r).col.rank⟩ : Coord2) = r := rfl
      rw [e0, e0r, e0c, e1, e2, e3]
      by_cases h : ow = r
      · rw [if_pos h, if_pos h, h]
      · rw [if_neg h, if_neg h])
    (fun r hrr => if_neg hrr) (by rw [if_pos rfl])
    (fun r hrr hne => by
      beta_reduce
      rw [if_pos rfl, if_pos rfl, if_neg hne])
  refine ⟨c', u1, u2, fun r hrr => ?_⟩
  rw [u3 r hrr]
  by_cases h : r = ow
  · rw [if_pos h, h]
    exact hI
  · rw [if_neg h]
    obtain ⟨h1, h2, h3⟩ := hs r hrr
    obtain ⟨k1, k2, -⟩ := hI
    refine ⟨?_, fun x hx => ?_, fun x y hx hy ox oy => ?_⟩
    · show putF (c.st r).d (t * nb) (tileN nb n t) (shF (stedcTile D junk (P.on ow) t (c.st ow)).d (t * nb)) = _
      rw [k1, h1, LF_succ]
      funext x
      unfold solveLeaf putF shF
      dsimp only
      by_cases hw : t * nb ≤ x ∧ x < t * nb + tileN nb n t
      · rw [if_pos hw, if_pos (show t * nb ≤ t * nb + (x - t * nb) ∧ t * nb + (x - t * nb) < t * nb + tileN nb n t by omega), if_pos hw,
          show t * nb + (x - t * nb) - t * nb = x - t * nb by omega]
      · rw [if_neg hw, if_neg hw]
    · have : (t + 1) * nb = t * nb + nb := by rw [Nat.add_mul, Nat.one_mul]
      show putF (c.st r).e (t * nb) (tileN nb n t) _ x = _
      unfold putF
      rw [if_neg (by unfold tileN; omega)]
      exact h2 x (by omega)
    · have hxn : x < n := by have := hr.size; omega
      have hyn : y < n := by have := hc.size; omega
      show (c.st r).q (P.row.localPos x) (P.col.localPos y) = _
      rw [h3 x y hx hy ox oy, LF_succ]
      unfold solveLeaf putE
      dsimp only
      rw [if_neg]
      rintro ⟨a, b⟩
      have ea := ((div_iff (n := n) hp).1 a).2
      have eb := ((div_iff (n := n) hp).1 b).2
      refine h ?_
      rw [← how]
      obtain ⟨r1, r2⟩ := r
      dsimp only at ox oy
      rw [← ox, ← oy, ← Ax.owner_tile hr, ← Ax.owner_tile hc, ea, eb]

include hr hc in
/-- All leaves. -/
theorem leaves_runs {c : Glob DLSt Tri} (hcl : Clean P.ranks c) (hs : ∀ r ∈ P.ranks, Inv P D nb n E dd z 0 r (c.st r)) :
    ∃ c', Runs (fun r => if r ∈ P.ranks then solveDistLeaf D junk (P.on r) else []) c c' ∧ Clean P.ranks c' ∧
      ∀ r ∈ P.ranks, Inv P D nb n E dd z (ceilDivN n nb) r (c'.st r) := by
  have hN : P.row.dist.nrTiles = ((ceilDivN n nb : Nat) : Int) := hr.nt
  obtain ⟨c', u1, u2⟩ := Runs.range (p := fun t r => if r ∈ P.ranks then leafTile D junk (P.on r) t else []) (s := 0) (e := P.row.dist.nrTiles) (by omega)
    (fun t c => Clean P.ranks c ∧ ∀ r ∈ P.ranks, Inv P D nb n E dd z t.toNat r (c.st r)) (g := c) ⟨hcl, hs⟩
    (fun t k0 k1 c hcc => by
      obtain ⟨t', rfl⟩ : ∃ t' : Nat, t = t' := ⟨t.toNat, by omega⟩
      have ht : t' * nb < n := (hr.lt_nt t').1 (by rw [hN] at k1; exact_mod_cast k1)
      obtain ⟨c', v1, v2, v3⟩ := leaf_step hr hc (junk := junk) ht hcc.1 (by simpa using hcc.2)
      exact ⟨c', v1, v2, by simpa using v3⟩)
  refine ⟨c', u1.congr fun r => ?_, u2.1, ?_⟩
  · by_cases hrr : r ∈ P.ranks
    · simp only [hrr, if_true]
      rfl
    · simp [hrr]
  · have := u2.2
    rw [hN] at this
    simpa using this

/-- The diagonal after Cuppen's decomposition. -/
noncomputable def torn (nb n : Nat) (dg e : Nat → ℝ) : Nat → ℝ := (upto 1 (ceilDivN n nb)).foldl (fun d i => cuppens nb n e i d) dg

include hr hc in
/-- The start of the solver. -/
theorem start_runs {dg : Nat → ℝ} {c : Glob DLSt Tri} (hcl : Clean P.ranks c) (hd : ∀ r ∈ P.ranks, (c.st r).d = dg) (he : ∀ r ∈ P.ranks, (c.st r).e = E) :
    ∃ c', Runs (fun r => if r ∈ P.ranks then distStart D junk (P.on r) nb n else []) c c' ∧ Clean P.ranks c' ∧
      ∀ r ∈ P.ranks, Inv P D nb n E (torn nb n dg E) (fun _ _ => 0) (ceilDivN n nb) r (c'.st r) := by
  let f1 : Coord2 → DLSt := fun r => setZero (P.on r) (c.st r)
  let g1 : Glob DLSt Tri := { c with st := fun r => if r ∈ P.ranks then f1 r else c.st r }
  have r1 : Runs (fun r => if r ∈ P.ranks then ([.loc fun st => some (setZero (P.on r) st)] : List (Instr DLSt Tri)) else []) c g1 :=
    Runs.loc P.ranks_nodup _ f1 (fun r => rfl) fun r _ => rfl
  let f2 : Coord2 → DLSt := fun r => { f1 r with d := torn nb n (f1 r).d (f1 r).e }
  let g2 : Glob DLSt Tri := { g1 with st := fun r => if r ∈ P.ranks then f2 r else g1.st r }
  have r2 : Runs (fun r => if r ∈ P.ranks then ([.loc fun st => some { st with d := (upto 1 (ceilDivN n nb)).foldl (fun d i => cuppens nb n st.e i d) st.d }] :
      List (Instr DLSt Tri)) else []) g1 g2 :=
    Runs.loc P.ranks_nodup _ f2 (fun r => rfl) fun r hrr => by
      show some _ = some _
      have : g1.st r = f1 r := if_pos hrr
      rw [this]
      rfl
  have h2 : ∀ r ∈ P.ranks, Inv P D nb n E (torn nb n dg E) (fun _ _ => 0) 0 r (g2.st r) := by
    intro r hrr
    have e : g2.st r = f2 r := if_pos hrr
    rw [e]
    have d1 : (f1 r).d = dg := hd r hrr
    have e1 : (f1 r).e = E := he r hrr
    refine ⟨?_, fun x _ => ?_, fun x y hx hy ox oy => ?_⟩
    · show torn nb n (f1 r).d (f1 r).e = _
      rw [d1, e1]
      rfl
    · exact congrFun e1 x
    · have mr := Params2.mem_ranks.1 hrr .Row
      have mc := Params2.mem_ranks.1 hrr .Col
      have vr : Ax (P.row.onRank r.row) n nb := hr.onRank mr.1 mr.2
      have vc : Ax (P.col.onRank r.col) n nb := hc.onRank mc.1 mc.2
      have a := vr.plain.valid.owned_elem (e := (x : Int)) (by omega) hx ox
      have b := vc.plain.valid.owned_elem (e := (y : Int)) (by omega) hy oy
      rw [vr.plain.valid.localPos_here (by omega) ox] at a
      rw [vc.plain.valid.localPos_here (by omega) oy] at b
      show (if (0 ≤ P.row.localPos x ∧ P.row.localPos x < (P.on r).row.localSize) ∧ (0 ≤ P.col.localPos y ∧ P.col.localPos y < (P.on r).col.localSize) then (0 : ℝ) else _) = _
      exact if_pos ⟨⟨a.1, a.2.1⟩, b.1, b.2.1⟩
  obtain ⟨c', u1, u2, u3⟩ := leaves_runs hr hc (D := D) (junk := junk) (c := g2) ⟨hcl.agree, hcl.fresh⟩ h2
  refine ⟨c', ((r1.append r2).append u1).congr fun r => ?_, u2, u3⟩
  by_cases hrr : r ∈ P.ranks
  · simp only [if_pos hrr]
    rfl
  · simp only [if_neg hrr]
    rfl

end
end DistLeaf
end DLAF
