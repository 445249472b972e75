import Verif.Lemmas.DistRedGeo
import Verif.Lemmas.DistCholesky
/- Distributed reduction to band: local work on some processes, all-reduces of one tile, changes of the tiles of the panel. -/
namespace DLAF
open scoped Classical

/-- Local work on some of the processes. -/
theorem Runs.locals_on {S V : Type*} {G L : List Coord2} (hL : L.Nodup) {g : Glob S V} (hc : Clean G g)
    (fs : Coord2 → List (S → Option S)) (Q : Coord2 → S → Prop) (hf : ∀ r ∈ L, ∃ s', runLocs (fs r) (g.st r) = some s' ∧ Q r s') :
    ∃ g', Runs (fun r => if r ∈ L then (fs r).map Instr.loc else []) g g' ∧ Clean G g' ∧ (∀ r ∈ L, Q r (g'.st r)) ∧
      ∀ r, r ∉ L → g'.st r = g.st r := by
  have hf' : ∀ r, ∃ s', r ∈ L → runLocs (fs r) (g.st r) = some s' ∧ Q r s' := by
    intro r
    by_cases hr : r ∈ L
    · obtain ⟨s', hs⟩ := hf r hr
      exact ⟨s', fun _ => hs⟩
    · exact ⟨g.st r, fun hc => absurd hc hr⟩
  choose s' h3 using hf'
  have h1 : ∀ r ∈ L, runLocs (fs r) (g.st r) = some (s' r) := fun r hr => (h3 r hr).1
  have h2 : ∀ r ∈ L, Q r (s' r) := fun r hr => (h3 r hr).2
  refine ⟨_, Runs.locals hL fs s' (fun r => rfl) h1, hc.withSt _, ?_, ?_⟩
  · intro r hr
    show Q r (if r ∈ L then s' r else g.st r)
    rw [if_pos hr]; exact h2 r hr
  · intro r hr
    show (if r ∈ L then s' r else g.st r) = g.st r
    rw [if_neg hr]

/-- One step of local work on some of the processes. -/
theorem Runs.loc_on {S V : Type*} {G L : List Coord2} (hL : L.Nodup) {g : Glob S V} (hc : Clean G g)
    (f : Coord2 → S → Option S) (Q : Coord2 → S → Prop) (hf : ∀ r ∈ L, ∃ s', f r (g.st r) = some s' ∧ Q r s') :
    ∃ g', Runs (fun r => if r ∈ L then [Instr.loc (f r)] else []) g g' ∧ Clean G g' ∧ (∀ r ∈ L, Q r (g'.st r)) ∧
      ∀ r, r ∉ L → g'.st r = g.st r :=
  Runs.locals_on hL hc (fun r => [f r]) Q fun r hr => by
    obtain ⟨s', h1, h2⟩ := hf r hr
    exact ⟨s', by rw [runLocs_one]; exact h1, h2⟩

namespace RbSt
variable {K : Type*}
theorem rSq_ok : (rSq : ERef (RbSt K) K).OK := ⟨fun _ _ => rfl, fun _ => rfl, fun _ _ _ => rfl⟩
theorem rWv_ok : (rWv : ERef (RbSt K) K).OK := ⟨fun _ _ => rfl, fun _ => rfl, fun _ _ _ => rfl⟩
theorem rV_ok : (rV : ERef (RbSt K) K).OK := ⟨fun _ _ => rfl, fun _ => rfl, fun _ _ _ => rfl⟩
theorem rVt_ok : (rVt : ERef (RbSt K) K).OK := ⟨fun _ _ => rfl, fun _ => rfl, fun _ _ _ => rfl⟩
theorem rW_ok : (rW : ERef (RbSt K) K).OK := ⟨fun _ _ => rfl, fun _ => rfl, fun _ _ _ => rfl⟩
theorem rWt_ok : (rWt : ERef (RbSt K) K).OK := ⟨fun _ _ => rfl, fun _ => rfl, fun _ _ _ => rfl⟩
theorem rX_ok : (rX : ERef (RbSt K) K).OK := ⟨fun _ _ => rfl, fun _ => rfl, fun _ _ _ => rfl⟩
theorem rXt_ok : (rXt : ERef (RbSt K) K).OK := ⟨fun _ _ => rfl, fun _ => rfl, fun _ _ _ => rfl⟩
theorem rT_ok : (rT : ERef (RbSt K) K).OK := ⟨fun _ _ => rfl, fun _ => rfl, fun _ _ _ => rfl⟩
end RbSt

namespace DistRed
section
variable {S K : Type*} [Field K] [StarRing K] {P : Params2} {n nb band j : Nat}

/-- The all-reduce of one tile in the column of the panel. -/
theorem allReduce_one {R : ERef S K} (hR : R.OK) (hg : 0 < P.row.grid) {g : Glob S (Blk K)} (hc : Clean P.ranks g) (a b : Nat)
    (u : Coord2 → Nat → Nat → K) (hU : ∀ r ∈ onCol P nb band j, R.get (g.st r) 0 = some ⟨a, b, u r⟩) :
    ∃ g', Runs (fun r => if r ∈ onCol P nb band j then allReduceTiles .Row (P.on r) R (fun _ => (a, b)) [0] else []) g g' ∧ Clean P.ranks g' ∧
      (∀ r ∈ onCol P nb band j, g'.st r = R.set (g.st r) (set1 (R.get (g.st r)) 0
        (some ⟨a, b, fun x y => ((irange 0 P.row.grid).map fun t => u ⟨t, rc P nb band j⟩ x y).sum⟩))) ∧
      ∀ r ∈ P.ranks, r ∉ onCol P nb band j → g'.st r = g.st r := by
  have hmem : ∀ r ∈ P.ranks, ∀ i ∈ (if r.get Coord.Row.orth = rc P nb band j then [(0 : Int)] else []), r ∈ onCol P nb band j ∧ i = 0 := by
    intro r hr i hi
    by_cases e : r.get Coord.Row.orth = rc P nb band j
    · rw [if_pos e, List.mem_singleton] at hi
      exact ⟨mem_onCol.2 ⟨hr, e⟩, hi⟩
    · rw [if_neg e] at hi
      cases hi
  obtain ⟨g', r1, c1, q1⟩ := allReduceTiles_runs (axis := .Row) (P := P) hR hc (fun _ _ => (a, b))
    (fun q => if q = rc P nb band j then [(0 : Int)] else []) (fun q => by split <;> simp) (fun r _ => ⟨a, b, u r⟩)
    (fun _ _ => ⟨a, b, fun x y => ((irange 0 P.row.grid).map fun t => u ⟨t, rc P nb band j⟩ x y).sum⟩)
    (fun r hr i hi => by
      obtain ⟨h1, rfl⟩ := hmem r hr i hi
      exact hU r h1)
    (fun r hr i hi => by
      obtain ⟨h1, rfl⟩ := hmem r hr i hi
      have hcol : r.col = rc P nb band j := (mem_onCol.1 h1).2
      have e1 : ∀ t, (panelChan Coord.Row r).rankOf t = ⟨t, rc P nb band j⟩ := fun t => by
        show (⟨t, r.col⟩ : Coord2) = _
        rw [hcol]
      simp only [e1]
      have e2 : (P.get Coord.Row).grid = P.row.grid := rfl
      rw [e2]
      obtain ⟨t0, ts, hts⟩ : ∃ t0 ts, irange 0 P.row.grid = t0 :: ts := by
        cases hl : irange 0 P.row.grid with
        | nil => have : (0 : Int) ∈ irange 0 P.row.grid := mem_irange.2 ⟨by omega, by omega⟩; rw [hl] at this; cases this
        | cons x xs => exact ⟨x, xs, rfl⟩
      rw [hts]
      exact sumBlk_exact (fun t => u ⟨t, rc P nb band j⟩) ts t0)
    (fun r hr i hi => ⟨rfl, rfl⟩)
  refine ⟨g', r1.congr fun r => ?_, c1, ?_, ?_⟩
  · by_cases hr : r ∈ onCol P nb band j
    · have h2 : r.get Coord.Row.orth = rc P nb band j := (mem_onCol.1 hr).2
      rw [if_pos hr, if_pos (mem_onCol.1 hr).1]
      rw [if_pos h2]
    · rw [if_neg hr]
      by_cases hr' : r ∈ P.ranks
      · have h2 : ¬ r.get Coord.Row.orth = rc P nb band j := fun e => hr (mem_onCol.2 ⟨hr', e⟩)
        rw [if_pos hr']
        rw [if_neg h2]
        rfl
      · rw [if_neg hr']
  · intro r hr
    have h2 : r.get Coord.Row.orth = rc P nb band j := (mem_onCol.1 hr).2
    rw [q1 r (mem_onCol.1 hr).1]
    rw [if_pos h2]
    congr 1
    funext i
    unfold set1
    by_cases hi : i = 0
    · rw [if_pos (by rw [hi]; exact List.mem_singleton_self _), if_pos hi]
    · rw [if_neg (by rw [List.mem_singleton]; exact hi), if_neg hi]
  · intro r hr hr'
    have h2 : ¬ r.get Coord.Row.orth = rc P nb band j := fun e => hr' (mem_onCol.2 ⟨hr, e⟩)
    rw [q1 r hr]
    rw [if_neg h2]
    have : (fun i : Int => if i ∈ ([] : List Int) then some (⟨a, b, fun x y => ((irange 0 P.row.grid).map fun t => u ⟨t, rc P nb band j⟩ x y).sum⟩ : Blk K)
        else R.get (g.st r) i) = R.get (g.st r) := by
      funext i; simp
    rw [this, hR.set_get]

end

/-! ### tiles of the panel -/
section
variable {K : Type*} [RCLike K]

/-- Updates of distinct tiles of one tile column. -/
theorem fold_set (c : Int) {u : RbSt K → Int → RbSt K} {B : Int → Blk K} {s : RbSt K} : ∀ {l : List Int}, l.Nodup →
    (∀ i ∈ l, ∀ s' : RbSt K, s'.a ⟨i, c⟩ = s.a ⟨i, c⟩ → s'.tau = s.tau → u s' i = { s' with a := set1 s'.a ⟨i, c⟩ (B i) }) →
    l.foldl u s = { s with a := fun z => if z.col = c ∧ z.row ∈ l then B z.row else s.a z } := by
  intro l
  induction l using List.reverseRecOn with
  | nil =>
    intro _ _
    simp
  | append_singleton l i ih =>
    intro hnd hu
    rw [List.nodup_append] at hnd
    rw [List.foldl_append, ih hnd.1 (fun x hx => hu x (by simp [hx])), List.foldl_cons, List.foldl_nil]
    have hi : i ∉ l := fun hc => hnd.2.2 i hc i (by simp) rfl
    refine (hu i (by simp) { s with a := fun z => if z.col = c ∧ z.row ∈ l then B z.row else s.a z }
      (by show (if c = c ∧ i ∈ l then B i else s.a ⟨i, c⟩) = _; rw [if_neg (fun e => hi e.2)]) rfl).trans ?_
    dsimp only
    congr 1
    funext z
    unfold set1
    by_cases hz : z = ⟨i, c⟩
    · rw [if_pos hz, if_pos (by rw [hz]; simp), hz]
    · rw [if_neg hz]
      refine if_congr ?_ rfl rfl
      constructor
      · rintro ⟨h1, h2⟩; exact ⟨h1, by simp [h2]⟩
      · rintro ⟨h1, h2⟩
        refine ⟨h1, ?_⟩
        rw [List.mem_append, List.mem_singleton] at h2
        rcases h2 with h2 | h2
        · exact h2
        · exact absurd (by cases z; simp_all) hz

variable {P : Params2} {n nb band j : Nat} (h : Geo P n nb band j)
include h

/-- The matrix after changes of the panel. -/
theorem Geo.win_of_tiles {r : Coord2} (hr : r ∈ onCol P nb band j) {A A' : Elems K} {loc : Coord2 → Blk K} (hA : WinAt P n nb n nb r A loc)
    {l : List Int} (hl : ∀ i ∈ l, i ∈ rows band (P.on r) j) {B : Int → Blk K}
    (hB : ∀ i ∈ l, IsWin (B i) A' ((P.row.onRank r.row).gn i * nb) (j * band / nb * nb)
      (min nb (n - (P.row.onRank r.row).gn i * nb)) (min nb (n - j * band / nb * nb)))
    (hc : ∀ x < n, ∀ y, ¬ (j * band ≤ y ∧ y < j * band + band) → A' x y = A x y)
    (ho : ∀ i, 0 ≤ i → i < (P.row.onRank r.row).dist.localNrTiles → i ∉ l → ∀ x, (P.row.onRank r.row).gn i * nb ≤ x →
      x < (P.row.onRank r.row).gn i * nb + nb → x < n → ∀ y, A' x y = A x y) :
    WinAt P n nb n nb r A' (fun z => if z.col = bc band (P.on r) j ∧ z.row ∈ l then B z.row else loc z) := by
  have hr' := mem_onCol.1 hr
  obtain ⟨b1, b2, b3, b4⟩ := h.bc_eq hr'.1 hr'.2
  intro i c i0 i1 c0 c1
  have hw := hA i c i0 i1 c0 c1
  dsimp only
  by_cases hcc : c = bc band (P.on r) j
  · by_cases hi : i ∈ l
    · rw [if_pos ⟨hcc, hi⟩, hcc, b4]
      exact hB i hi
    · rw [if_neg (fun e => hi e.2)]
      exact hw.congr fun x h1 h2 y _ _ => (ho i i0 i1 hi x h1 (by omega) (by omega) y).symm
  · rw [if_neg (fun e => hcc e.1)]
    exact hw.congr fun x h1 h2 y h3 h4 => (hc x (by omega) y (h.other_col hr'.1 hr'.2 c0 hcc h3 (by omega))).symm

/-- What `el` is. -/
theorem Geo.el_eq {r : Coord2} (hr : r ∈ onCol P nb band j) {A : Elems K} {s : RbSt K} (hA : WinAt P n nb n nb r A s.a) {i : Int}
    (hi : i ∈ rows band (P.on r) j) {x c : Nat} (hx : x < hgt band (P.on r) j i) (hc : c < band) :
    el nb band (P.on r) j s i x c = A ((pc nb n band j ((P.row.onRank r.row).gn i)).1 + x) (j * band + c) := by
  have hr' := mem_onCol.1 hr
  obtain ⟨b1, b2, b3, b4⟩ := h.bc_eq hr'.1 hr'.2
  have hi' := (h.mem_rows hr'.1).1 hi
  have hw := hA i _ hi'.1 hi'.2.1 b2 b3
  rw [h.hgt_eq hr'.1 hi] at hx
  obtain ⟨p1, p2⟩ := h.piece_at hr'.1 hi
  have hm := h.modc
  have hd := h.c0_div
  have hj := h.hj
  unfold el
  rw [hw.2.2 _ (by omega) _ (by rw [b4]; unfold cc DistRed.c0; omega), b4]
  unfold cc DistRed.c0
  congr 1 <;> omega

/-- A changed tile of the panel. -/
theorem Geo.upd_win {r : Coord2} (hr : r ∈ onCol P nb band j) {A A' : Elems K} {s : RbSt K} (hA : WinAt P n nb n nb r A s.a) {i : Int}
    (hi : i ∈ rows band (P.on r) j) {f : Nat → Nat → K}
    (hf : ∀ x < hgt band (P.on r) j i, ∀ c < band, f x c = A' ((pc nb n band j ((P.row.onRank r.row).gn i)).1 + x) (j * band + c))
    (hc : ∀ x < n, ∀ y, ¬ (((j + 1) * band ≤ x) ∧ j * band ≤ y ∧ y < j * band + band) → A' x y = A x y) :
    IsWin (⟨(s.a ⟨i, bc band (P.on r) j⟩).rows, (s.a ⟨i, bc band (P.on r) j⟩).cols, fun x c =>
      if (cut band (P.on r) j i ≤ x ∧ x < cut band (P.on r) j i + hgt band (P.on r) j i) ∧ cc nb band j ≤ c ∧ c < cc nb band j + band then
        f (x - cut band (P.on r) j i) (c - cc nb band j) else (s.a ⟨i, bc band (P.on r) j⟩).e x c⟩ : Blk K) A'
      ((P.row.onRank r.row).gn i * nb) (j * band / nb * nb)
      (min nb (n - (P.row.onRank r.row).gn i * nb)) (min nb (n - j * band / nb * nb)) := by
  have hr' := mem_onCol.1 hr
  obtain ⟨b1, b2, b3, b4⟩ := h.bc_eq hr'.1 hr'.2
  have hi' := (h.mem_rows hr'.1).1 hi
  have hw := hA i _ hi'.1 hi'.2.1 b2 b3
  rw [b4] at hw
  have hg := h.hgt_eq hr'.1 hi
  obtain ⟨p1, p2⟩ := h.piece_at hr'.1 hi
  have hm := h.modc
  have hd := h.c0_div
  have hcc : cc nb band j = j * band % nb := rfl
  have hr0 := h.r0_div
  refine ⟨hw.1, hw.2.1, fun x hx c hc' => ?_⟩
  dsimp only
  split
  · rename_i e
    rw [hf _ (by omega) _ (by omega), ← p1]
    congr 1 <;> omega
  · rename_i e
    rw [hw.2.2 x hx c hc']
    refine (hc _ (by omega) _ fun e' => e ?_).symm
    have hcut := h.cut_eq hr'.1 hi
    refine ⟨⟨?_, by omega⟩, by omega, by omega⟩
    rw [hcut]
    split
    · rename_i eg
      rw [eg] at e'
      omega
    · omega

end
end DistRed
end DLAF
