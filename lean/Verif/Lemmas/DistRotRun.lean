import Verif.Lemmas.DistRotStep
/- Distributed Givens rotations: one rotation on all processes. -/
namespace DLAF
namespace DistRot
open scoped Classical

theorem owner_in {p : Params} {n nb : Nat} (h : Ax p n nb) {ib ie len c : Nat} (R : Rng n nb ib ie len) (hc : c < len)
    (ho : p.dist.rank_global_tile ((ib + c / nb : Nat) : Int) = p.rank) : p.nx ie ≠ p.nx ib := by
  obtain ⟨t1, t2⟩ := range_tile h.nb_pos R (x := ib * nb + c) (by omega) (by omega)
  rw [col_tile h.nb_pos] at t1 t2
  have := h.plain.nx_succ (t := ((ib + c / nb : Nat) : Int)) (Int.natCast_nonneg _) ho
  have := h.plain.nx_mono (s := (ib : Int)) (t := ((ib + c / nb : Nat) : Int)) (Int.natCast_nonneg _) (by exact_mod_cast t1)
  have := h.plain.nx_mono (s := ((ib + c / nb : Nat) : Int) + 1) (t := (ie : Int)) (by have := Int.natCast_nonneg (ib + c / nb); omega) (by exact_mod_cast t2)
  omega

theorem pair_has {i a b : Int} {r : Coord2} : (Chan.pair i a b).has r = true ↔ r.row = i ∧ (r.col = a ∨ r.col = b) := by
  unfold Chan.has
  exact decide_eq_true_iff

section
variable {P : Params2} {n nb : Nat} (h1 : Ax P.row n nb) (h2 : Ax P.col n nb) {ib ie len : Nat} (R : Rng n nb ib ie len)

/-- The process takes part. -/
def inR (P : Params2) (ib ie : Nat) (r : Coord2) : Prop :=
  (P.row.onRank r.row).nx ie ≠ (P.row.onRank r.row).nx ib ∧ (P.col.onRank r.col).nx ie ≠ (P.col.onRank r.col).nx ib

/-- The owner of a column of the range. -/
noncomputable def own (P : Params2) (nb ib c : Nat) : Int := P.col.dist.rank_global_tile ((ib + c / nb : Nat) : Int)

include h1 h2 R

omit R in
theorem rotate_eq {r : Coord2} (hr : r ∈ P.ranks) (wsz : Int) (q : Rot) :
    rotate (P.on r) (sub P ib len r) (org P ib r) (ext P ib ie r) wsz q =
      if r.col = own P nb ib q.i then
        if r.col = own P nb ib q.j then [.loc (rotBoth (P.on r) (loc P ib len r) (colPtr (sub P ib len r) (org P ib r) (ext P ib ie r) q.i) (colPtr (sub P ib len r) (org P ib r) (ext P ib ie r) q.j) q)]
        else exchange (P.on r) (loc P ib len r) wsz (colPtr (sub P ib len r) (org P ib r) (ext P ib ie r) q.i) r.row (own P nb ib q.i) (own P nb ib q.j) (own P nb ib q.j) ++
          [.loc (rotOwnX (P.on r) (loc P ib len r) (colPtr (sub P ib len r) (org P ib r) (ext P ib ie r) q.i) q)]
      else if r.col = own P nb ib q.j then
        exchange (P.on r) (loc P ib len r) wsz (colPtr (sub P ib len r) (org P ib r) (ext P ib ie r) q.j) r.row (own P nb ib q.i) (own P nb ib q.j) (own P nb ib q.i) ++
          [.loc (rotOwnY (P.on r) (loc P ib len r) (colPtr (sub P ib len r) (org P ib r) (ext P ib ie r) q.j) q)]
      else [] := by
  have b2 := Params2.mem_ranks.1 hr .Col
  have a2 : Ax (P.col.onRank r.col) n nb := h2.onRank b2.1 b2.2
  have ts : (P.on r).row.tileSize = nb := h1.tile
  have e : ∀ c : Nat, (sub P ib len r).col.rank_global_tile (cdiv c (P.on r).row.tileSize) = own P nb ib c := by
    intro c
    rw [ts]
    have : cdiv (c : Int) (nb : Int) = ((c / nb : Nat) : Int) := by
      show Int.tdiv _ _ = _
      rw [Int.tdiv_eq_ediv_of_nonneg (by omega), Int.natCast_ediv]
    rw [this]
    exact a2.cut_rank len ib (c / nb)
  unfold rotate
  dsimp only
  rw [e, e]
  rfl

/-- One rotation on all processes. -/
theorem rotate_runs {q : Rot} (hi : q.i < len) (hj : q.j < len) (hij : q.i ≠ q.j) (wsz : Coord2 → Int)
    (hws : ∀ r ∈ P.ranks, inR P ib ie r → (loc P ib len r : Int) ≤ wsz r) {M : Elems ℝ} {g : Glob RotSt (Blk ℝ)} (hc : Clean P.ranks g)
    (hw : ∀ r ∈ P.ranks, WinAt P n nb n nb r M (g.st r).a) :
    ∃ g', Runs (fun r => if r ∈ P.ranks then (if inR P ib ie r then rotate (P.on r) (sub P ib len r) (org P ib r) (ext P ib ie r) (wsz r) q else []) else []) g g' ∧
      Clean P.ranks g' ∧ ∀ r ∈ P.ranks, WinAt P n nb n nb r (rotG (ib * nb) len q M) (g'.st r).a := by
  have ax2 : ∀ r ∈ P.ranks, Ax (P.col.onRank r.col) n nb := fun r hr => by
    have b2 := Params2.mem_ranks.1 hr .Col
    exact h2.onRank b2.1 b2.2
  have inI : ∀ r ∈ P.ranks, r.col = own P nb ib q.i → (P.row.onRank r.row).nx ie ≠ (P.row.onRank r.row).nx ib → inR P ib ie r := fun r hr o z =>
    ⟨z, owner_in (ax2 r hr) R hi o.symm⟩
  have inJ : ∀ r ∈ P.ranks, r.col = own P nb ib q.j → (P.row.onRank r.row).nx ie ≠ (P.row.onRank r.row).nx ib → inR P ib ie r := fun r hr o z =>
    ⟨z, owner_in (ax2 r hr) R hj o.symm⟩
  -- what the processes without local work need
  have rest : ∀ r ∈ P.ranks, ¬ (inR P ib ie r ∧ (r.col = own P nb ib q.i ∨ r.col = own P nb ib q.j)) → ∀ a, WinAt P n nb n nb r M a →
      WinAt P n nb n nb r (rotG (ib * nb) len q M) a := by
    intro r hr hn a ha
    by_cases hz : (P.row.onRank r.row).nx ie = (P.row.onRank r.row).nx ib
    · exact skip_rows h1 h2 hr R ha hz q
    · refine skip_cols h1 h2 hr R ha ?_ ?_
      · intro o
        exact hn ⟨inI r hr o.symm hz, .inl o.symm⟩
      · intro o
        exact hn ⟨inJ r hr o.symm hz, .inr o.symm⟩
  let L := P.ranks.filter fun r => decide (inR P ib ie r ∧ (r.col = own P nb ib q.i ∨ r.col = own P nb ib q.j))
  have hL : L.Nodup := (Params2.ranks_nodup P).filter _
  have mL : ∀ r, r ∈ L ↔ r ∈ P.ranks ∧ inR P ib ie r ∧ (r.col = own P nb ib q.i ∨ r.col = own P nb ib q.j) := by
    intro r; simp [L]
  by_cases hXY : own P nb ib q.i = own P nb ib q.j
  · -- both columns on the same process
    obtain ⟨g', r1, c1, s1, s2⟩ := Runs.loc_on hL hc (fun r => rotBoth (P.on r) (loc P ib len r) (colPtr (sub P ib len r) (org P ib r) (ext P ib ie r) q.i) (colPtr (sub P ib len r) (org P ib r) (ext P ib ie r) q.j) q)
      (fun r s => WinAt P n nb n nb r (rotG (ib * nb) len q M) s.a) (fun r hr => by
        obtain ⟨m1, m2, m3⟩ := (mL r).1 hr
        have o1 : r.col = own P nb ib q.i := by rcases m3 with m3 | m3 <;> omega
        exact rotBoth_spec h1 h2 m1 R hi hj m2.1 (hw r m1) hij o1.symm (by rw [o1, hXY]; rfl))
    refine ⟨g', r1.congr fun r => ?_, c1, fun r hr => ?_⟩
    · by_cases hr : r ∈ P.ranks
      · rw [if_pos hr, rotate_eq h1 h2 hr]
        by_cases hin : inR P ib ie r
        · rw [if_pos hin]
          by_cases o1 : r.col = own P nb ib q.i
          · rw [if_pos o1, if_pos (by rw [o1, hXY]), if_pos ((mL r).2 ⟨hr, hin, .inl o1⟩)]
          · rw [if_neg o1, if_neg (by rw [← hXY]; exact o1), if_neg]
            intro z
            have := ((mL r).1 z).2.2
            omega
        · rw [if_neg hin, if_neg (fun z => hin ((mL r).1 z).2.1)]
      · rw [if_neg hr, if_neg (fun z => hr ((mL r).1 z).1)]
    · by_cases hrL : r ∈ L
      · exact s1 r hrL
      · rw [s2 r hrL]
        exact rest r hr (fun z => hrL ((mL r).2 ⟨hr, z⟩)) _ (hw r hr)
  · -- an exchange
    let oth : Int → Int := fun c => if c = own P nb ib q.i then own P nb ib q.j else own P nb ib q.i
    let cc : Coord2 → Nat := fun r => if r.col = own P nb ib q.i then q.i else q.j
    let ptr : Coord2 → Option ColPtr := fun r => colPtr (sub P ib len r) (org P ib r) (ext P ib ie r) (cc r)
    let ch : Coord2 → Chan := fun r => .pair r.row (min (own P nb ib q.i) (own P nb ib q.j)) (max (own P nb ib q.i) (own P nb ib q.j))
    have hv : ∀ r, ∃ v : Blk ℝ, r ∈ L → sendCol (P.on r) (loc P ib len r) (ptr r) (g.st r) = some (g.st r, v) ∧ v.rows = loc P ib len r ∧
        ∀ k < loc P ib len r, v.e k 0 = M (rowOf P nb ib r k) (ib * nb + cc r) := by
      intro r
      by_cases hr : r ∈ L
      · obtain ⟨m1, m2, m3⟩ := (mL r).1 hr
        by_cases o1 : r.col = own P nb ib q.i
        · obtain ⟨v, v1⟩ := sendX h1 h2 m1 R hi m2.1 (hw r m1) o1.symm
          have e : cc r = q.i := if_pos o1
          refine ⟨v, fun _ => ?_⟩
          dsimp only [ptr]
          rw [e]
          exact v1
        · have o2 : r.col = own P nb ib q.j := m3.resolve_left o1
          obtain ⟨v, v1⟩ := sendY h1 h2 m1 R hj m2.1 (hw r m1) o2.symm
          have e : cc r = q.j := if_neg o1
          refine ⟨v, fun _ => ?_⟩
          dsimp only [ptr]
          rw [e]
          exact v1
      · exact ⟨⟨0, 0, fun _ _ => 0⟩, fun z => absurd z hr⟩
    choose v hv using hv
    have hoth : ∀ r ∈ L, (⟨r.row, oth r.col⟩ : Coord2) ∈ L ∧ cc ⟨r.row, oth r.col⟩ = (if r.col = own P nb ib q.i then q.j else q.i) := by
      intro r hr
      obtain ⟨m1, m2, m3⟩ := (mL r).1 hr
      have rg : ∀ c, 0 ≤ own P nb ib c ∧ own P nb ib c < P.col.grid := fun c => h2.plain.valid.wf.cyc.rank_range (Int.natCast_nonneg _)
      have mem : ∀ c, (⟨r.row, own P nb ib c⟩ : Coord2) ∈ P.ranks := by
        intro c
        rw [Params2.mem_ranks]
        intro x
        cases x
        · exact Params2.mem_ranks.1 m1 .Row
        · exact rg c
      by_cases o1 : r.col = own P nb ib q.i
      · have e : oth r.col = own P nb ib q.j := if_pos o1
        rw [e]
        refine ⟨(mL _).2 ⟨mem _, inJ _ (mem _) rfl m2.1, .inr rfl⟩, ?_⟩
        dsimp only [cc]
        rw [if_neg (fun z => hXY z.symm), if_pos o1]
      · have e : oth r.col = own P nb ib q.i := if_neg o1
        rw [e]
        refine ⟨(mL _).2 ⟨mem _, inI _ (mem _) rfl m2.1, .inl rfl⟩, ?_⟩
        dsimp only [cc]
        rw [if_pos rfl, if_neg o1]
    have hmm : ∀ c : Int, (c = min (own P nb ib q.i) (own P nb ib q.j) ∨ c = max (own P nb ib q.i) (own P nb ib q.j)) ↔ (c = own P nb ib q.i ∨ c = own P nb ib q.j) := by
      intro c; omega
    obtain ⟨ga, r1, c1, s1⟩ := collective_phase (Params2.ranks_nodup P) hc
      (p := fun r => if r ∈ L then exchange (P.on r) (loc P ib len r) (wsz r) (ptr r) r.row (own P nb ib q.i) (own P nb ib q.j) (oth r.col) else [])
      (fun r => if r ∈ L then some (ch r) else none) (fun _ => true) (fun r => sendCol (P.on r) (loc P ib len r) (ptr r)) (fun _ => .exchange)
      (fun r => [⟨r.row, oth r.col⟩]) (fun r => recvOne (recvCol (loc P ib len r) (wsz r))) g.st
      (fun r => { g.st r with ws := fun k => if k < loc P ib len r then (v ⟨r.row, oth r.col⟩).e k 0 else (g.st r).ws k }) v
      (fun r _ => by
        beta_reduce
        by_cases hr : r ∈ L
        · rw [if_pos hr, if_pos hr]; rfl
        · rw [if_neg hr, if_neg hr])
      (fun r hr => by
        beta_reduce
        rw [if_neg (fun z => hr ((mL r).1 z).1)])
      (fun r _ c hcr => by
        beta_reduce at hcr
        by_cases hr : r ∈ L
        · rw [if_pos hr] at hcr
          obtain rfl := Option.some.inj hcr
          obtain ⟨m1, m2, m3⟩ := (mL r).1 hr
          refine ⟨pair_has.2 ⟨rfl, (hmm _).2 m3⟩, fun s hs hhs => ?_⟩
          obtain ⟨e1, e2⟩ := pair_has.1 hhs
          have e3 := (hmm _).1 e2
          have hz : (P.row.onRank s.row).nx ie ≠ (P.row.onRank s.row).nx ib := by rw [e1]; exact m2.1
          have hsL : s ∈ L := (mL s).2 ⟨hs, e3.elim (fun z => inI s hs z hz) (fun z => inJ s hs z hz), e3⟩
          rw [if_pos hsL]
          dsimp only [ch]
          rw [e1]
        · rw [if_neg hr] at hcr
          exact absurd hcr (by simp))
      (fun r _ c hcr => by
        beta_reduce at hcr
        by_cases hr : r ∈ L
        · rw [if_pos rfl]
          exact (hv r hr).1
        · rw [if_neg hr] at hcr
          exact absurd hcr (by simp))
      (fun r _ c hcr s hs => by
        beta_reduce at hcr
        by_cases hr : r ∈ L
        · rw [if_pos hr] at hcr
          obtain rfl := Option.some.inj hcr
          obtain rfl := List.mem_singleton.1 hs
          obtain ⟨m1, _, m3⟩ := (mL _).1 (hoth r hr).1
          exact ⟨m1, pair_has.2 ⟨rfl, (hmm _).2 m3⟩, rfl⟩
        · rw [if_neg hr] at hcr
          exact absurd hcr (by simp))
      (fun r hr' c hcr => by
        beta_reduce at hcr
        by_cases hr : r ∈ L
        · obtain ⟨m1, m2, m3⟩ := (mL r).1 hr
          show recvCol _ _ _ _ = _
          unfold recvCol
          rw [if_pos ⟨(hv _ (hoth r hr).1).2.1, hws r m1 m2⟩]
        · rw [if_neg hr] at hcr
          exact absurd hcr (by simp))
    have st1 : ∀ r ∈ L, (ga.st r).a = (g.st r).a ∧ ∀ k < loc P ib len r, (ga.st r).ws k = M (rowOf P nb ib r k) (ib * nb + (if r.col = own P nb ib q.i then q.j else q.i)) := by
      intro r hr
      have hrG := ((mL r).1 hr).1
      rw [s1 r, if_pos ⟨hrG, by rw [if_pos hr]; rfl⟩]
      refine ⟨rfl, fun k hk => ?_⟩
      dsimp only
      rw [if_pos hk, (hv _ (hoth r hr).1).2.2 k hk, (hoth r hr).2]
      rfl
    have st2 : ∀ r, r ∉ L → ga.st r = g.st r := by
      intro r hr
      rw [s1 r, if_neg]
      rintro ⟨_, z⟩
      rw [if_neg hr] at z
      exact absurd z (by simp)
    obtain ⟨gb, r2, c2, t1, t2⟩ := Runs.loc_on hL c1
      (fun r => if r.col = own P nb ib q.i then rotOwnX (P.on r) (loc P ib len r) (ptr r) q else rotOwnY (P.on r) (loc P ib len r) (ptr r) q)
      (fun r s => WinAt P n nb n nb r (rotG (ib * nb) len q M) s.a) (fun r hr => by
        obtain ⟨m1, m2, m3⟩ := (mL r).1 hr
        obtain ⟨u1, u2⟩ := st1 r hr
        have hw' : WinAt P n nb n nb r M (ga.st r).a := by rw [u1]; exact hw r m1
        beta_reduce
        by_cases o1 : r.col = own P nb ib q.i
        · rw [if_pos o1]
          simp only [if_pos o1] at u2
          have e : cc r = q.i := if_pos o1
          dsimp only [ptr]
          rw [e]
          exact rotOwnX_spec h1 h2 m1 R hi m2.1 hw' o1.symm (fun z => hXY (o1.symm.trans z.symm)) u2
        · rw [if_neg o1]
          simp only [if_neg o1] at u2
          have o2 : r.col = own P nb ib q.j := m3.resolve_left o1
          have e : cc r = q.j := if_neg o1
          dsimp only [ptr]
          rw [e]
          exact rotOwnY_spec h1 h2 m1 R hj m2.1 hw' (fun z => o1 z.symm) o2.symm u2)
    refine ⟨gb, (DistRed.Runs.if_append r1 r2).congr fun r => ?_, c2, fun r hr => ?_⟩
    · by_cases hr : r ∈ P.ranks
      · rw [if_pos hr, rotate_eq h1 h2 hr]
        by_cases hin : inR P ib ie r
        · rw [if_pos hin]
          by_cases o1 : r.col = own P nb ib q.i
          · have e1 : ptr r = colPtr (sub P ib len r) (org P ib r) (ext P ib ie r) q.i := by dsimp only [ptr, cc]; rw [if_pos o1]
            have e2 : oth r.col = own P nb ib q.j := if_pos o1
            rw [if_pos o1, if_neg (fun z => hXY (o1.symm.trans z)), if_pos ((mL r).2 ⟨hr, hin, .inl o1⟩), if_pos o1, e1, e2]
          · rw [if_neg o1]
            by_cases o2 : r.col = own P nb ib q.j
            · have e1 : ptr r = colPtr (sub P ib len r) (org P ib r) (ext P ib ie r) q.j := by dsimp only [ptr, cc]; rw [if_neg o1]
              have e2 : oth r.col = own P nb ib q.i := if_neg o1
              rw [if_pos o2, if_pos ((mL r).2 ⟨hr, hin, .inr o2⟩), if_neg o1, e1, e2]
            · rw [if_neg o2, if_neg (fun z => ((mL r).1 z).2.2.elim o1 o2)]
        · rw [if_neg hin, if_neg (fun z => hin ((mL r).1 z).2.1)]
      · rw [if_neg hr, if_neg (fun z => hr ((mL r).1 z).1)]
    · by_cases hrL : r ∈ L
      · exact t1 r hrL
      · rw [t2 r hrL, st2 r hrL]
        exact rest r hr (fun z => hrL ((mL r).2 ⟨hr, z⟩)) _ (hw r hr)

end
end DistRot
end DLAF
