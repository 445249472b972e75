import Verif.Lemmas.DistRank1Pairs
import Verif.Lemmas.DistRedPanel3
import Verif.Props.Distribution
/- C68: the phases of the distributed solver. -/
namespace DLAF
namespace DistR1
open Finset
variable {g : DR1Cfg} {P : Params2} {n : Nat} {klc : Int → Nat} {st0 : Coord2 → DR1St}

/-- The eigenvalue of column `e`. -/
noncomputable def eigOf (g : DR1Cfg) (e : Nat) : ℝ := if g.i6.getD e 0 < g.k then lamOf g (g.i6.getD e 0) else g.d (g.i6.getD e 0)

open scoped Classical in
/-- `evals` of a process that has received what satisfies `have`. -/
noncomputable def evOf (g : DR1Cfg) (n : Nat) (ev : Nat → ℝ) (got : Nat → Prop) (e : Nat) : ℝ := if e < n ∧ got e then eigOf g e else ev e

open scoped Classical in
/-- Columns of a process with the values `W` in the non-deflated part. -/
noncomputable def qOf (g : DR1Cfg) (P : Params2) (klc : Int → Nat) (r : Coord2) (q : Nat → Nat → ℝ) (W : Nat → Nat → ℝ) (x y : Nat) : ℝ :=
  if y < klc r.col ∧ x < localColumns P.row r.row ∧ placeRow P g.i4 r.row x < g.k then W (placeRow P g.i4 r.row x) (placeCol P g.i6 r.col y) else q x y

/-- `delta` of `laed4`. -/
def deltaOf (g : DR1Cfg) (i a : Nat) : ℝ := (g.laed4 g.k a g.d g.z g.rho).2 i

open scoped Classical in
noncomputable def sums0 (P : Params2) (r : Coord2) (s : Nat → ℝ) (y : Nat) : ℝ := if y < localColumns P.col r.col then 0 else s y

theorem local_iff {p : Params} (hp : p.Valid) (hn : p.size = n) {r : Int} (h0 : 0 ≤ r) (h1 : r < p.grid) {e : Nat} :
    (∃ y < localColumns p r, localColumn p r y = e) ↔ e < n ∧ p.owner e = r := by
  constructor
  · rintro ⟨y, hy, rfl⟩
    obtain ⟨_, u2, u3, _⟩ := DistPart.col_spec hp hn h0 h1 hy
    exact ⟨u2, u3⟩
  · rintro ⟨he, rfl⟩
    exact (DistPart.col_surj hp hn he).2

variable (hf : Rank1Fits P n g.k g.i4 g.i6 g.i2 klc)
include hf

theorem row_ok {r : Coord2} (hr : r ∈ P.ranks) : 0 ≤ r.row ∧ r.row < P.row.grid := Params2.mem_ranks.1 hr .Row
omit hf in
theorem col_ok {r : Coord2} (hr : r ∈ P.ranks) : 0 ≤ r.col ∧ r.col < P.col.grid := Params2.mem_ranks.1 hr .Col

/-- The first phase on one process. -/
theorem first {r : Coord2} (hr : r ∈ P.ranks) {nt : Nat} (hw : 0 < nt) (st : DR1St) :
    byWorkers nt (klc r.col) (fun _ J => J.map (laed g (P.on r))) (start g (P.on r) n (klc r.col) st) =
      { st with evals := evOf g n st.evals (fun e => P.col.owner e = r.col), q := qOf g P klc r st.q (deltaOf g), sums := sums0 P r st.sums } := by
  obtain ⟨h0, h1⟩ := col_ok hr
  obtain ⟨hle, hsp⟩ := hf.split r.col h0 h1
  have hloc := fun e => local_iff (e := e) hf.col hf.colSize h0 h1
  have hg : ∀ y, gCol (P.on r) y = localColumn P.col r.col y := fun _ => rfl
  have hc : cols (P.on r) = localColumns P.col r.col := rfl
  have hi : ∀ x, is g (P.on r) x = placeRow P g.i4 r.row x := fun _ => rfl
  have hj : ∀ x, js g (P.on r) x = placeCol P g.i6 r.col x := fun _ => rfl
  have hrw : rows (P.on r) = localColumns P.row r.row := rfl
  rw [byWorkers_list hw, run_laed]
  have hst : start g (P.on r) n (klc r.col) st =
      { zeroSums (P.on r) st with evals := fun e => if e < n ∧ P.col.owner e = r.col ∧ g.k ≤ g.i6.getD e 0 then g.d (g.i6.getD e 0) else st.evals e } := by
    unfold start
    by_cases hkn : g.k < n
    · rw [if_pos hkn, run_deflEval]
      congr 1
      funext e
      simp only [hg, hc]
      congr 1
      apply propext
      constructor
      · rintro ⟨y, hy, rfl⟩
        rw [mem_upto] at hy
        obtain ⟨a1, a2⟩ := (hloc _).1 ⟨y, hy.2, rfl⟩
        refine ⟨a1, a2, ?_⟩
        have := (hsp y hy.2).not.1 (by omega)
        omega
      · rintro ⟨a1, a2, a3⟩
        obtain ⟨y, hy, rfl⟩ := (hloc _).2 ⟨a1, a2⟩
        refine ⟨y, mem_upto.2 ⟨?_, hy⟩, rfl⟩
        have := (hsp y hy).not.2 (by omega)
        omega
    · rw [if_neg hkn, Bulk.runList_nil]
      have : (fun e => if e < n ∧ P.col.owner e = r.col ∧ g.k ≤ g.i6.getD e 0 then g.d (g.i6.getD e 0) else st.evals e) = st.evals := by
        funext e
        refine if_neg ?_
        rintro ⟨a1, _, a3⟩
        have := (get_of_perm hf.colPlaces a1).2
        omega
      rw [this]
      rfl
  rw [hst]
  unfold zeroSums
  dsimp only
  simp only [hg, hi, hj, hrw, hc, List.mem_range]
  congr 1
  · funext e
    unfold evOf eigOf
    by_cases ho : e < n ∧ P.col.owner e = r.col
    · obtain ⟨y, hy, rfl⟩ := (hloc _).2 ho
      rw [if_pos ho]
      by_cases hlt : g.i6.getD (localColumn P.col r.col y) 0 < g.k
      · rw [if_pos hlt, if_pos ⟨y, (hsp y hy).2 hlt, rfl⟩]
        rfl
      · rw [if_neg hlt, if_neg, if_pos ⟨ho.1, ho.2, by omega⟩]
        rintro ⟨z, hz, e⟩
        have := (DistPart.col_inj hf.col hf.colSize h0 h1 h0 h1 (show z < _ by omega) hy e).2
        subst this
        exact hlt ((hsp z hy).1 hz)
    · rw [if_neg ho, if_neg, if_neg (fun h => ho ⟨h.1, h.2.1⟩)]
      rintro ⟨z, hz, e⟩
      exact ho ((hloc _).1 ⟨z, by omega, e⟩)

omit hf in
/-- The window of tile `t`. -/
theorem tile_window {p : Params} (hp : p.Valid) {t e : Int} (h0 : 0 ≤ t) (h1 : t < p.dist.nrTiles) (he : 0 ≤ e) :
    (p.dist.global_element_from_global_tile_and_tile_element t 0 ≤ e ∧ e < p.dist.global_element_from_global_tile_and_tile_element t 0 + p.dist.global_tile_size_of t) ↔
      e < p.size ∧ p.dist.global_tile_from_global_element e = t := by
  have hsh : ∀ t te, p.dist.global_element_from_global_tile_and_tile_element t te = p.dist.global_element_from_global_tile_and_tile_element t 0 + te := by
    intro t te
    unfold Dist1.global_element_from_global_tile_and_tile_element util.element_from_tile_and_tile_element
    omega
  constructor
  · rintro ⟨a, b⟩
    obtain ⟨e', ⟨_, c2, c3, _⟩, c4, _⟩ := C03_global_combine hp h0 h1 (te := e - p.dist.global_element_from_global_tile_and_tile_element t 0) (by omega) (by omega)
    rw [hsh] at c4
    have : e' = e := by omega
    subst this
    exact ⟨c2, c3⟩
  · rintro ⟨a, rfl⟩
    obtain ⟨b1, _, _, b4, b5⟩ := C03_global_split hp he a
    rw [hsh] at b1
    omega

omit hf in
theorem tile_begin_nonneg {p : Params} (hp : p.Valid) {t : Int} (h0 : 0 ≤ t) (h1 : t < p.dist.nrTiles) :
    0 ≤ p.dist.global_element_from_global_tile_and_tile_element t 0 ∧ 0 ≤ p.dist.global_tile_size_of t := by
  have hb := C06_tile_size_bounds hp h0 h1
  obtain ⟨e', ⟨c1, c2, c3, _⟩, c4, _⟩ := C03_global_combine hp h0 h1 (te := 0) (by omega) (by omega)
  omega

/-- The state of a process before the weights. -/
noncomputable def stA (g : DR1Cfg) (P : Params2) (n : Nat) (klc : Int → Nat) (st0 : Coord2 → DR1St) (got : Coord2 → Nat → Prop) (r : Coord2) : DR1St :=
  { st0 r with evals := evOf g n (st0 r).evals (got r), q := qOf g P klc r (st0 r).q (deltaOf g), sums := sums0 P r (st0 r).sums }

omit hf in
theorem stA_congr {got got' : Coord2 → Nat → Prop} {r : Coord2} (h : ∀ e < n, got r e ↔ got' r e) : stA g P n klc st0 got r = stA g P n klc st0 got' r := by
  unfold stA
  dsimp only
  congr 1
  funext e
  unfold evOf
  congr 1
  exact propext (and_congr_right fun he => h e he)

/-- One broadcast of eigenvalues. -/
theorem bcast_step {t : Int} (ht0 : 0 ≤ t) (ht1 : t < P.col.dist.nrTiles) {c : Glob DR1St Msg} (hc : Clean P.ranks c)
    (hs : ∀ r ∈ P.ranks, c.st r = stA g P n klc st0 (fun r e => P.col.owner e = r.col ∨ P.col.dist.global_tile_from_global_element e < t) r) :
    ∃ c', Runs (fun r => if r ∈ P.ranks then bcastEval (P.on r) t else []) c c' ∧ Clean P.ranks c' ∧
      ∀ r ∈ P.ranks, c'.st r = stA g P n klc st0 (fun r e => P.col.owner e = r.col ∨ P.col.dist.global_tile_from_global_element e < t + 1) r := by
  set root := P.col.dist.rank_global_tile t with hroot
  set b := P.col.dist.global_element_from_global_tile_and_tile_element t 0 with hb
  set len := P.col.dist.global_tile_size_of t with hlen
  obtain ⟨b0, l0⟩ := tile_begin_nonneg hf.col ht0 ht1
  rw [← hb] at b0
  rw [← hlen] at l0
  have hcs := hf.colSize
  have win : ∀ e : Nat, (b.toNat ≤ e ∧ e < b.toNat + len.toNat) ↔ e < n ∧ P.col.dist.global_tile_from_global_element e = t := by
    intro e
    have := tile_window hf.col ht0 ht1 (e := (e : Int)) (by omega)
    rw [← hb, ← hlen] at this
    constructor
    · intro h
      obtain ⟨u1, u2⟩ := this.1 (by omega)
      exact ⟨by omega, u2⟩
    · rintro ⟨h1, h2⟩
      obtain ⟨u1, u2⟩ := this.2 ⟨by omega, h2⟩
      omega
  have own : ∀ e : Nat, P.col.dist.global_tile_from_global_element e = t → P.col.owner e = root := by
    intro e he
    rw [← hf.col.owner_eq (e := (e : Int)) (by omega), hroot, ← he]
    rfl
  have hrootR : 0 ≤ root ∧ root < P.col.grid := by
    obtain ⟨o, ho, _, h3⟩ := C01_tile_owner hf.col ht0 ht1
    have := (h3 0 (by omega) hf.col.2.2.2.2.1).1
    rw [rank_global_tile_onRank] at this
    rw [hroot, this]
    exact ho
  set got : Coord2 → Nat → Prop := fun r e => P.col.owner e = r.col ∨ P.col.dist.global_tile_from_global_element e < t with hgot
  set got' : Coord2 → Nat → Prop := fun r e => P.col.owner e = r.col ∨ P.col.dist.global_tile_from_global_element e < t + 1 with hgot'
  obtain ⟨c', h1, h2, h3⟩ := bcast_phase P.ranks_nodup hc (p := fun r => if r ∈ P.ranks then bcastEval (P.on r) t else [])
    (fun r => some (.row r.row)) root
    (fun _ st => some (st, (len.toNat, fun l => st.evals (b.toNat + l))))
    (fun _ st v => if v.1 = len.toNat then some { st with evals := fun e => if b.toNat ≤ e ∧ e < b.toNat + len.toNat then v.2 (e - b.toNat) else st.evals e } else none)
    (fun r => stA g P n klc st0 got' r) (fun ch => (len.toNat, fun l => (stA g P n klc st0 got (ch.rankOf root)).evals (b.toNat + l)))
    (fun r hr => by
      beta_reduce
      rw [if_pos hr]
      have e : (r = (Chan.row r.row).rankOf root) ↔ root = r.col := by
        obtain ⟨i, j⟩ := r
        simp only [Chan.rankOf, Coord2.mk.injEq, true_and]
        exact eq_comm
      have : bcastEval (P.on r) t = if root = r.col then bcastSend (.row r.row) root fun st => some (st, (len.toNat, fun l => st.evals (b.toNat + l))) else
          bcastRecv (.row r.row) root fun st v =>
            if v.1 = len.toNat then some { st with evals := fun e => if b.toNat ≤ e ∧ e < b.toNat + len.toNat then v.2 (e - b.toNat) else st.evals e } else none := rfl
      rw [this]
      simp only [e])
    (fun r hr => if_neg hr)
    (fun r hr ch hch => by
      obtain rfl := Option.some.inj hch
      refine ⟨by simp [Chan.has], fun s _ hs => ?_⟩
      have : s.row = r.row := by simpa [Chan.has] using hs
      rw [this])
    (fun r hr ch hch => by
      obtain rfl := Option.some.inj hch
      refine Params2.mem_ranks.2 fun co => ?_
      cases co
      · exact Params2.mem_ranks.1 hr .Row
      · exact hrootR)
    (fun r hr ch hch he => by
      obtain rfl := Option.some.inj hch
      have hcr : r.col = root := by rw [he]; rfl
      beta_reduce
      rw [← he, hs r hr]
      rw [stA_congr (got := got) (got' := got') fun e _ => ?_]
      rw [hgot, hgot']
      constructor
      · rintro (h | h)
        · exact .inl h
        · exact .inr (by omega)
      · rintro (h | h)
        · exact .inl h
        · rcases Int.lt_or_eq_of_le (Int.lt_add_one_iff.1 h) with h | h
          · exact .inr h
          · exact .inl (by rw [own e h, hcr]))
    (fun r hr ch hch he => by
      obtain rfl := Option.some.inj hch
      rw [if_pos rfl, hs r hr]
      congr 1
      unfold stA
      dsimp only
      congr 1
      funext e
      unfold evOf
      by_cases hw : b.toNat ≤ e ∧ e < b.toNat + len.toNat
      · have hw' := (win e).1 hw
        rw [if_pos hw, show b.toNat + (e - b.toNat) = e by omega, if_pos ⟨hw'.1, .inl (own e hw'.2)⟩, if_pos ⟨hw'.1, .inr (by rw [hw'.2]; omega)⟩]
      · rw [if_neg hw]
        congr 1
        apply propext
        refine and_congr_right fun hen => ?_
        constructor
        · rintro (h | h)
          · exact .inl h
          · exact .inr (by omega)
        · rintro (h | h)
          · exact .inl h
          · rcases Int.lt_or_eq_of_le (Int.lt_add_one_iff.1 h) with h | h
            · exact .inr h
            · exact absurd ((win e).2 ⟨hen, h⟩) hw)
  exact ⟨c', h1, h2, fun r hr => by rw [h3 r, if_pos ⟨hr, rfl⟩]⟩

/-- The broadcast of the eigenvalues. -/
theorem bcast_all {c : Glob DR1St Msg} (hc : Clean P.ranks c)
    (hs : ∀ r ∈ P.ranks, c.st r = stA g P n klc st0 (fun r e => P.col.owner e = r.col) r) :
    ∃ c', Runs (fun r => if r ∈ P.ranks then (if 1 < (P.on r).col.grid then (irange 0 (P.on r).col.nrTiles).flatMap (bcastEval (P.on r)) else []) else []) c c' ∧
      Clean P.ranks c' ∧ ∀ r ∈ P.ranks, c'.st r = stA g P n klc st0 (fun _ _ => True) r := by
  have hcs := hf.colSize
  by_cases hg : 1 < P.col.grid
  · have hN : 0 ≤ P.col.dist.nrTiles := hf.col.wf.nrTiles_nonneg
    obtain ⟨c', h1, h2, h3⟩ := Runs.range (p := fun t r => if r ∈ P.ranks then bcastEval (P.on r) t else []) hN
      (fun t c => Clean P.ranks c ∧ ∀ r ∈ P.ranks, c.st r = stA g P n klc st0 (fun r e => P.col.owner e = r.col ∨ P.col.dist.global_tile_from_global_element e < t) r)
      (g := c) ⟨hc, fun r hr => by
        rw [hs r hr]
        refine stA_congr fun e he => ⟨.inl, fun h => h.elim id fun h => ?_⟩
        have := (C03_global_split hf.col (e := (e : Int)) (by omega) (by omega)).2.1
        omega⟩
      (fun t h0 h1 c hc => bcast_step hf h0 h1 hc.1 hc.2 |>.imp fun c' h => ⟨h.1, h.2⟩)
    refine ⟨c', h1.congr fun r => ?_, h2, fun r hr => ?_⟩
    · by_cases hr : r ∈ P.ranks
      · simp only [hr, if_true]
        rw [if_pos (show 1 < (P.on r).col.grid from hg)]
        rfl
      · simp [hr]
    · rw [h3 r hr]
      refine stA_congr fun e he => ⟨fun _ => trivial, fun _ => .inr ?_⟩
      exact (C03_global_split hf.col (e := (e : Int)) (by omega) (by omega)).2.2.1
  · refine ⟨c, .nil (fun r => ?_) c, hc, fun r hr => ?_⟩
    · have : ¬ 1 < (P.on r).col.grid := hg
      rw [if_neg this, ite_self]
    · rw [hs r hr]
      refine stA_congr fun e he => ⟨fun _ => trivial, fun _ => ?_⟩
      have h1 := (C01_element_owner hf.col (e := (e : Int)) (by omega) (by omega)).1
      have h2 := col_ok hr
      omega

omit hf in
/-- One all-reduce, along the process columns (`axis = .Col`) or the process rows. -/
theorem allReduce_step (axis : Coord) (op : List ℝ → ℝ) (len : Coord2 → Nat) (get : DR1St → Nat → ℝ) (put : DR1St → (Nat → ℝ) → DR1St)
    (hl : ∀ r ∈ P.ranks, ∀ s ∈ P.ranks, s.get axis.orth = r.get axis.orth → len s = len r) {c : Glob DR1St Msg} (hc : Clean P.ranks c) :
    ∃ c', Runs (fun r => if r ∈ P.ranks then allReduce (panelChan axis r) (P.get axis).grid op (len r) get put else []) c c' ∧ Clean P.ranks c' ∧
      ∀ r ∈ P.ranks, c'.st r = put (c.st r) fun x =>
        if x < len r then op ((irange 0 (P.get axis).grid).map fun k => get (c.st ((panelChan axis r).rankOf k)) x) else get (c.st r) x := by
  have hmem : ∀ r ∈ P.ranks, ∀ k, 0 ≤ k → k < (P.get axis).grid → (panelChan axis r).rankOf k ∈ P.ranks := by
    intro r hr k h0 h1
    obtain ⟨u1, u2⟩ := chan_rankOf axis r k
    refine Params2.mem_ranks.2 fun co => ?_
    have := Params2.mem_ranks.1 hr axis.orth
    cases axis <;> cases co <;> simp_all [Coord.orth]
  obtain ⟨c', h1, h2, h3⟩ := collective_phase P.ranks_nodup hc
    (p := fun r => if r ∈ P.ranks then allReduce (panelChan axis r) (P.get axis).grid op (len r) get put else [])
    (fun r => some (panelChan axis r)) (fun _ => true) (fun r st => some (st, (len r, get st))) (fun _ => .allReduce)
    (fun r => (irange 0 (P.get axis).grid).map (panelChan axis r).rankOf)
    (fun r st vs => if ∀ v ∈ vs, v.1 = len r then some (put st fun x => if x < len r then op (vs.map fun v => v.2 x) else get st x) else none)
    c.st
    (fun r => put (c.st r) fun x =>
        if x < len r then op ((irange 0 (P.get axis).grid).map fun k => get (c.st ((panelChan axis r).rankOf k)) x) else get (c.st r) x)
    (fun r => (len r, get (c.st r)))
    (fun r hr => by beta_reduce; rw [if_pos hr]; rfl)
    (fun r hr => if_neg hr)
    (fun r hr ch hch => by
      obtain rfl := Option.some.inj hch
      exact ⟨(chan_has axis r r).2 rfl, fun s _ hs => by rw [chan_eq axis ((chan_has axis r s).1 hs)]⟩)
    (fun r hr ch hch => by rw [if_pos rfl])
    (fun r hr ch hch s hs => by
      obtain rfl := Option.some.inj hch
      obtain ⟨k, hk, rfl⟩ := List.mem_map.1 hs
      obtain ⟨k0, k1⟩ := mem_irange.1 hk
      exact ⟨hmem r hr k k0 k1, (chan_has axis r _).2 (chan_rankOf axis r k).2, rfl⟩)
    (fun r hr ch hch => by
      rw [if_pos]
      · simp only [List.map_map, Function.comp_def]
      · intro v hv
        rw [List.mem_map] at hv
        obtain ⟨s, hs, rfl⟩ := hv
        obtain ⟨k, hk, rfl⟩ := List.mem_map.1 hs
        obtain ⟨k0, k1⟩ := mem_irange.1 hk
        exact hl r hr _ (hmem r hr k k0 k1) (chan_rankOf axis r k).2)
  exact ⟨c', h1, h2, fun r hr => by rw [h3 r, if_pos ⟨hr, rfl⟩]⟩

end DistR1
end DLAF
