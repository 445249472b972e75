import Verif.Lemmas.DistRedHemm4
/- Distributed reduction to band: `W`, `W2`, the update of `X` and of the trailing matrix. -/
namespace DLAF
open scoped Classical
namespace DistRed
variable {K : Type*} [RCLike K] {P : Params2} {n nb band j : Nat} {dt : Coord2 → Dist1}

theorem sum1_step {K X : Type*} [AddCommMonoid K] (S : Finset X) (D : X → Prop) (f : X → K) {a : X} (ha : a ∈ S) (hD : ¬ D a) :
    (∑ i ∈ S, if D i ∨ i = a then f i else 0) = (∑ i ∈ S, if D i then f i else 0) + f a := by
  have e : f a = ∑ i ∈ S, if i = a then f i else 0 := by
    rw [Finset.sum_ite_eq' S a, if_pos ha]
  conv_rhs => rw [e]
  rw [← Finset.sum_add_distrib]
  refine Finset.sum_congr rfl fun i _ => ?_
  by_cases h1 : D i
  · have : ¬ i = a := by rintro rfl; exact hD h1
    rw [if_pos (.inl h1), if_pos h1, if_neg this, add_zero]
  · rw [if_neg h1, zero_add]
    by_cases h2 : i = a
    · rw [if_pos (.inr h2), if_pos h2]
    · rw [if_neg (by tauto), if_neg h2]

/-- `her2k` of windows. -/
theorem her2k_win {k s0 m : Nat} {v x a : Blk K} {V X A : Elems K} (hv : IsWin v V s0 0 m k) (hx : IsWin x X s0 0 m k) (ha : IsWin a A s0 s0 m m) :
    ∃ d, her2k .Lower .NoTrans (-1) v x 1 a = some d ∧ IsWin d (fun x y => if y ≤ x then her2kE k V X A x y else A x y) s0 s0 m m := by
  unfold her2k
  rw [if_pos ⟨ha.1.trans ha.2.1.symm, hv.1.trans hx.1.symm, hv.2.1.trans hx.2.1.symm, ha.1.trans hv.1.symm⟩]
  refine ⟨_, rfl, ha.1, ha.2.1, fun r hr c hc => ?_⟩
  simp only [Blk.mul, Blk.op, hv.2.1, hx.2.1, ha.2.2 r hr c hc]
  by_cases hcr : c ≤ r
  · rw [if_pos (by simpa using hcr), if_pos (by omega)]
    unfold her2kE
    have e1 : ∀ l ∈ Finset.range k, v.e r l * star (x.e c l) = V (s0 + r) l * star (X (s0 + c) l) := fun l hl => by
      rw [Finset.mem_range] at hl
      rw [hv.2.2 r hr l hl, hx.2.2 c hc l hl, Nat.zero_add]
    have e2 : ∀ l ∈ Finset.range k, x.e r l * star (v.e c l) = X (s0 + r) l * star (V (s0 + c) l) := fun l hl => by
      rw [Finset.mem_range] at hl
      rw [hx.2.2 r hr l hl, hv.2.2 c hc l hl, Nat.zero_add]
    rw [Finset.sum_congr rfl e1, Finset.sum_congr rfl e2, Finset.sum_add_distrib, star_neg, star_one]
    ring
  · rw [if_neg (by simpa using hcr), if_neg (by omega)]

/-- The two multiplications of a tile below the diagonal. -/
theorem her2k_off_win {k s0 u0 m m' : Nat} {v x vt xt a : Blk K} {V X A : Elems K} (hv : IsWin v V s0 0 m k) (hx : IsWin x X s0 0 m k)
    (hvt : IsWin vt V u0 0 m' k) (hxt : IsWin xt X u0 0 m' k) (ha : IsWin a A s0 u0 m m') :
    ∃ d, ((gemm .NoTrans .ConjTrans (-1) x vt 1 a).bind fun a => gemm .NoTrans .ConjTrans (-1) v xt 1 a) = some d ∧ IsWin d (her2kE k V X A) s0 u0 m m' := by
  obtain ⟨d, d1, d2⟩ := gemm_win .NoTrans .ConjTrans (-1) 1 (a := x) (b := vt) (c := a) hx (conj_win hvt) ha
  obtain ⟨e, e1, e2⟩ := gemm_win .NoTrans .ConjTrans (-1) 1 (a := v) (b := xt) (c := d) hv (conj_win hxt) d2
  rw [d1, Option.bind_some, e1]
  refine ⟨e, rfl, e2.congr fun x _ _ y _ _ => ?_⟩
  unfold her2kE
  simp only [Nat.zero_add]
  rw [Finset.sum_add_distrib]
  ring

section
variable (h : Geo P n nb band j)
include h

/-- `W = V T`. -/
theorem Geo.setW_all {r : Coord2} (hr : r ∈ P.ranks) {E : RedEnv K} {V : Elems K} {F : Nat → Nat → K} (hF : ∀ c < nr n band j, ∀ i < nr n band j, c < i → F i c = 0) {s : RbSt K}
    (hV : HR P n nb band j r V s.pV) (hT : s.pT 0 = some ⟨nr n band j, nr n band j, F⟩) :
    ∃ p, runLocs ((rows band (P.on r) j).map (setW n band E (P.on r) j)) s = some { s with pW := p } ∧
      HR P n nb band j r (fun x c => ∑ l ∈ Finset.range (nr n band j), V x l * F l c) p := by
  obtain ⟨p, p1, p2, -⟩ := write_each RbSt.rW_ok (s := s) (f := setW n band E (P.on r) j)
    (fun i d => IsWin d (fun x c => ∑ l ∈ Finset.range (nr n band j), V x l * F l c) (pc nb n band j ((P.row.onRank r.row).gn i)).1 0
      (pc nb n band j ((P.row.onRank r.row).gn i)).2 (nr n band j))
    (l := rows band (P.on r) j) (view_nodup _ _) (fun i hi p _ => by
      obtain ⟨v, v1, v2⟩ := hV i hi
      have hvs := h.vSize_eq hr hi
      obtain ⟨d, d1, d2⟩ := trmm3_win hF v2 (w := ⟨(vSize n band (P.on r) j i).1, (vSize n band (P.on r) j i).2, E.junk (4 * j + 2)⟩)
        ⟨by rw [hvs]; rfl, by rw [hvs]⟩
      refine ⟨d, ?_, d2⟩
      unfold setW
      have e1 : RbSt.rT.read 0 (RbSt.rW.set s p) = some ⟨nr n band j, nr n band j, F⟩ := hT
      have e2 : RbSt.rV.read i (RbSt.rW.set s p) = some v := v1
      rw [e1, Option.bind_some, e2, Option.bind_some, d1, Option.bind_some]
      exact ERef.write_of RbSt.rW_ok (by rw [hvs]; exact d2.1) (by rw [hvs]; exact d2.2.1) p)
  exact ⟨p, p1, p2⟩

/-- The local part of `W2 = Wᴴ X`. -/
theorem Geo.w2_local {r : Coord2} (hr : r ∈ P.ranks) {W X : Elems K} {s : RbSt K} (hW : HR P n nb band j r W s.pW) (hX : HR P n nb band j r X s.pX) :
    ∃ p f, runLocs ([zeroW2 n band j] ++ (rows band (P.on r) j).map (addW2 n band j)) s = some { s with pT := p } ∧
      p 0 = some ⟨nr n band j, nr n band j, f⟩ ∧ ∀ l < nr n band j, ∀ c < nr n band j,
        f l c = ∑ i ∈ (View.tiles (P.row.onRank r.row).dist (((j + 1) * band : Nat) : Int)).toFinset,
          ∑ x ∈ Finset.range (pc nb n band j ((P.row.onRank r.row).gn i)).2,
            star (W ((pc nb n band j ((P.row.onRank r.row).gn i)).1 + x) l) * X ((pc nb n band j ((P.row.onRank r.row).gn i)).1 + x) c := by
  refine Exists.elim (runLocs_each (view_nodup _ _ : (rows band (P.on r) j).Nodup)
    (s := { s with pT := set1 s.pT 0 (some (Blk.zero (nr n band j) (nr n band j))) }) (f := addW2 n band j)
    (fun D s' => ∃ p b, s' = { s with pT := p } ∧ p 0 = some b ∧ IsWin b (fun l c =>
      ∑ i ∈ (View.tiles (P.row.onRank r.row).dist (((j + 1) * band : Nat) : Int)).toFinset,
        if D i then ∑ x ∈ Finset.range (pc nb n band j ((P.row.onRank r.row).gn i)).2,
            star (W ((pc nb n band j ((P.row.onRank r.row).gn i)).1 + x) l) * X ((pc nb n band j ((P.row.onRank r.row).gn i)).1 + x) c else 0)
      0 0 (nr n band j) (nr n band j)) ?_ ?_) ?_
  · exact ⟨_, _, rfl, set1_at s.pT 0 _, rfl, rfl, fun _ _ _ _ => by simp [Blk.zero]⟩
  · rintro D i s' hi hD _ ⟨p, b, rfl, hp, hb⟩
    obtain ⟨w, w1, w2⟩ := hW i hi
    obtain ⟨x, x1, x2⟩ := hX i hi
    obtain ⟨d, d1, d2⟩ := gemm_win .ConjTrans .NoTrans 1 1 (a := w) (b := x) (c := b) (conj_win w2) x2 hb
    have e1 : RbSt.rW.read i ({ s with pT := p } : RbSt K) = some w := w1
    have e2 : RbSt.rX.read i ({ s with pT := p } : RbSt K) = some x := x1
    have e3 : RbSt.rT.read 0 ({ s with pT := p } : RbSt K) = some b := hp
    refine ⟨{ s with pT := set1 p 0 (some d) }, ?_, _, d, rfl, set1_at p 0 _, d2.congr fun l _ _ c _ _ => ?_⟩
    · unfold addW2
      rw [e1, Option.bind_some, e2, Option.bind_some, e3, Option.bind_some, d1, Option.bind_some]
      unfold ERef.write tSize
      rw [if_pos ⟨d2.1, d2.2.1⟩]
      rfl
    · beta_reduce
      rw [one_mul, one_mul, add_comm]
      have := sum1_step (View.tiles (P.row.onRank r.row).dist (((j + 1) * band : Nat) : Int)).toFinset D
        (fun i => ∑ x ∈ Finset.range (pc nb n band j ((P.row.onRank r.row).gn i)).2,
            star (W ((pc nb n band j ((P.row.onRank r.row).gn i)).1 + x) l) * X ((pc nb n band j ((P.row.onRank r.row).gn i)).1 + x) c)
        (a := i) (List.mem_toFinset.2 hi) hD
      refine Eq.trans ?_ (this.symm.trans ?_)
      · rfl
      · exact Finset.sum_congr rfl fun i _ => ite_of_iff Iff.rfl
  · rintro s' ⟨e1, p, b, rfl, hp, hb⟩
    refine ⟨p, b.e, ?_, ?_, fun l hl c hc => ?_⟩
    · rw [runLocs_append, runLocs_one]
      have : zeroW2 n band j s = some { s with pT := set1 s.pT 0 (some (Blk.zero (nr n band j) (nr n band j))) } := by
        unfold zeroW2 ERef.write tSize
        rw [if_pos ⟨rfl, rfl⟩]
        rfl
      rw [this, Option.bind_some]
      exact e1
    · rw [hp]
      cases b
      simp only [IsWin] at hb
      rw [hb.1, hb.2.1]
    · have := hb.2.2 l hl c hc
      rw [this]
      simp only [Nat.zero_add]
      exact Finset.sum_congr rfl fun i hi => if_pos (List.mem_toFinset.1 hi)

/-- The sum of `T` over the processes of the column. -/
theorem Geo.sumT {g2 : Glob (RbSt K) (Blk K)} (c2 : Clean P.ranks g2) (u : Coord2 → Nat → Nat → K)
    (hu : ∀ r ∈ onCol P nb band j, (g2.st r).pT 0 = some ⟨nr n band j, nr n band j, u r⟩) :
    ∃ g3, Runs (fun r => if r ∈ onCol P nb band j then
        (if 1 < (P.on r).row.grid then allReduceTiles .Row (P.on r) RbSt.rT (fun _ => tSize n band j) [0] else []) else []) g2 g3 ∧ Clean P.ranks g3 ∧
      (∀ r ∈ onCol P nb band j, ∃ p, g3.st r = { g2.st r with pT := p } ∧
        p 0 = some ⟨nr n band j, nr n band j, fun x y => ((irange 0 P.row.grid).map fun t => u ⟨t, rc P nb band j⟩ x y).sum⟩) ∧
      ∀ r ∈ P.ranks, r ∉ onCol P nb band j → g3.st r = g2.st r := by
  have hgp := h.grid_pos
  have hgr : ∀ r, (P.on r).row.grid = P.row.grid := fun _ => rfl
  by_cases hg : 1 < P.row.grid
  · obtain ⟨g3, r3, c3, q3, o3⟩ := allReduce_one (nb := nb) (band := band) (j := j) RbSt.rT_ok hgp c2 (nr n band j) (nr n band j) u hu
    refine ⟨g3, r3.congr fun r => ?_, c3, fun r hr => ⟨_, q3 r hr, ?_⟩, o3⟩
    · rw [hgr, if_pos hg]
      rfl
    · exact set1_at (g2.st r).pT 0 _
  · refine ⟨g2, .nil (fun r => by rw [hgr, if_neg hg]; split <;> rfl) g2, c2, fun r hr => ⟨(g2.st r).pT, rfl, ?_⟩, fun _ _ _ => rfl⟩
    rw [hu r hr]
    have hrr := Params2.mem_ranks.1 (mem_onCol.1 hr).1 .Row
    have e1 : P.row.grid = 1 := by omega
    have e2 : irange 0 P.row.grid = [0] := by rw [e1]; rfl
    have e3 : r = ⟨0, rc P nb band j⟩ := by
      have a : r.row = 0 := by
        have a1 : 0 ≤ r.row := hrr.1
        have a2 : r.row < P.row.grid := hrr.2
        omega
      have b := (mem_onCol.1 hr).2
      cases r
      simp only at a b
      rw [a, b]
    rw [e2]
    simp only [List.map_cons, List.map_nil, List.sum_cons, List.sum_nil, add_zero]
    rw [← e3]

/-- `X -= 1/2 V W2`. -/
theorem Geo.updX_all {r : Coord2} (hr : r ∈ P.ranks) {V X w2 : Elems K} {f : Nat → Nat → K} {s : RbSt K}
    (hV : HR P n nb band j r V s.pV) (hX : HR P n nb band j r X s.pX) (hT : s.pT 0 = some ⟨nr n band j, nr n band j, f⟩)
    (hf : ∀ l < nr n band j, ∀ c < nr n band j, f l c = w2 l c) :
    ∃ p, runLocs ((rows band (P.on r) j).map (updX n band (P.on r) j)) s = some { s with pX := p } ∧
      HR P n nb band j r (fun x c => -(1 / 2) * (∑ l ∈ Finset.range (nr n band j), V x l * w2 l c) + X x c) p := by
  have hw2 : IsWin (⟨nr n band j, nr n band j, f⟩ : Blk K) w2 0 0 (nr n band j) (nr n band j) :=
    ⟨rfl, rfl, fun l hl c hc => by rw [Nat.zero_add, Nat.zero_add]; exact hf l hl c hc⟩
  obtain ⟨p, p1, p2, -⟩ := write_each RbSt.rX_ok (s := s) (f := updX n band (P.on r) j)
    (fun i d => IsWin d (fun x c => -(1 / 2) * (∑ l ∈ Finset.range (nr n band j), V x l * w2 l c) + X x c) (pc nb n band j ((P.row.onRank r.row).gn i)).1 0
      (pc nb n band j ((P.row.onRank r.row).gn i)).2 (nr n band j))
    (l := rows band (P.on r) j) (view_nodup _ _) (fun i hi p hp => by
      obtain ⟨v, v1, v2⟩ := hV i hi
      obtain ⟨x, x1, x2⟩ := hX i hi
      have hvs := h.vSize_eq hr hi
      obtain ⟨d, d1, d2⟩ := gemm_win .NoTrans .NoTrans (-(1 / 2)) 1 (a := v) (b := ⟨nr n band j, nr n band j, f⟩) (c := x) v2 hw2 x2
      refine ⟨d, ?_, d2.congr fun x _ _ y _ _ => by simp only [Nat.zero_add, one_mul]⟩
      unfold updX
      have e1 : RbSt.rT.read 0 (RbSt.rX.set s p) = some ⟨nr n band j, nr n band j, f⟩ := hT
      have e2 : RbSt.rV.read i (RbSt.rX.set s p) = some v := v1
      have e3 : RbSt.rX.read i (RbSt.rX.set s p) = some x := hp.trans x1
      rw [e2, Option.bind_some, e1, Option.bind_some, e3, Option.bind_some, d1, Option.bind_some]
      exact ERef.write_of RbSt.rX_ok (by rw [hvs]; exact d2.1) (by rw [hvs]; exact d2.2.1) p)
  exact ⟨p, p1, p2⟩

/-- `W2` and the update of `X`. -/
theorem Geo.xPart_runs {V W X w2 : Elems K} {g : Glob (RbSt K) (Blk K)} (hcl : Clean P.ranks g)
    (hV : ∀ r ∈ onCol P nb band j, HR P n nb band j r V (g.st r).pV) (hW : ∀ r ∈ onCol P nb band j, HR P n nb band j r W (g.st r).pW)
    (hX : ∀ r ∈ onCol P nb band j, HR P n nb band j r X (g.st r).pX)
    (hw2 : w2 = fun l c => ∑ x ∈ Finset.Ico ((j + 1) * band) n, star (W x l) * X x c) :
    ∃ g', Runs (fun r => if r ∈ onCol P nb band j then xPart n band (P.on r) j else []) g g' ∧ Clean P.ranks g' ∧
      (∀ r ∈ onCol P nb band j, ∃ p pt, g'.st r = { g.st r with pX := p, pT := pt } ∧
        HR P n nb band j r (fun x c => -(1 / 2) * (∑ l ∈ Finset.range (nr n band j), V x l * w2 l c) + X x c) p) ∧
      ∀ r ∈ P.ranks, r ∉ onCol P nb band j → g'.st r = g.st r := by
  have hsub : ∀ r ∈ onCol P nb band j, r ∈ P.ranks := fun r hr => (mem_onCol.1 hr).1
  obtain ⟨g1, r1, c1, q1, o1⟩ := Runs.locals_on (onCol_nodup (P := P) (nb := nb) (band := band) (j := j)) hcl
    (fun r => [zeroW2 n band j] ++ (rows band (P.on r) j).map (addW2 n band j))
    (fun r s' => ∃ p f, s' = { g.st r with pT := p } ∧ p 0 = some ⟨nr n band j, nr n band j, f⟩ ∧ ∀ l < nr n band j, ∀ c < nr n band j,
        f l c = ∑ i ∈ (View.tiles (P.row.onRank r.row).dist (((j + 1) * band : Nat) : Int)).toFinset,
          ∑ x ∈ Finset.range (pc nb n band j ((P.row.onRank r.row).gn i)).2,
            star (W ((pc nb n band j ((P.row.onRank r.row).gn i)).1 + x) l) * X ((pc nb n band j ((P.row.onRank r.row).gn i)).1 + x) c)
    (fun r hr => by
      obtain ⟨p, f, h1, h2, h3⟩ := h.w2_local (hsub r hr) (hW r hr) (hX r hr)
      exact ⟨_, h1, p, f, rfl, h2, h3⟩)
  have hex : ∀ r, ∃ f : Nat → Nat → K, r ∈ onCol P nb band j → (g1.st r).pT 0 = some ⟨nr n band j, nr n band j, f⟩ ∧ ∀ l < nr n band j, ∀ c < nr n band j,
        f l c = ∑ i ∈ (View.tiles (P.row.onRank r.row).dist (((j + 1) * band : Nat) : Int)).toFinset,
          ∑ x ∈ Finset.range (pc nb n band j ((P.row.onRank r.row).gn i)).2,
            star (W ((pc nb n band j ((P.row.onRank r.row).gn i)).1 + x) l) * X ((pc nb n band j ((P.row.onRank r.row).gn i)).1 + x) c := by
    intro r
    by_cases hr : r ∈ onCol P nb band j
    · obtain ⟨p, f, e, h2, h3⟩ := q1 r hr
      exact ⟨f, fun _ => ⟨by rw [e]; exact h2, h3⟩⟩
    · exact ⟨fun _ _ => 0, fun e => absurd e hr⟩
  choose u hu using hex
  obtain ⟨g2, r2, c2, q2, o2⟩ := h.sumT c1 u fun r hr => (hu r hr).1
  have hts : ∀ l < nr n band j, ∀ c < nr n band j, ((irange 0 P.row.grid).map fun t => u ⟨t, rc P nb band j⟩ l c).sum = w2 l c := by
    intro l hl c hc
    have e1 : ∀ t ∈ irange 0 P.row.grid, u ⟨t, rc P nb band j⟩ l c =
        ∑ i ∈ (View.tiles (P.row.onRank t).dist (((j + 1) * band : Nat) : Int)).toFinset,
          ∑ x ∈ Finset.range (pc nb n band j ((P.row.onRank t).gn i)).2,
            star (W ((pc nb n band j ((P.row.onRank t).gn i)).1 + x) l) * X ((pc nb n band j ((P.row.onRank t).gn i)).1 + x) c := by
      intro t ht
      rw [mem_irange] at ht
      exact (hu _ (h.on_mk ht.1 ht.2)).2 l hl c hc
    rw [List.map_congr_left e1]
    have e2 := h.a1.sum_ranks ((j + 1) * band) fun t => ∑ x ∈ Finset.range (pc nb n band j t).2,
            star (W ((pc nb n band j t).1 + x) l) * X ((pc nb n band j t).1 + x) c
    refine e2.trans ?_
    rw [hw2]
    exact sum_pieces h.nbp h.r0n (fun x => star (W x l) * X x c)
  obtain ⟨g3, r3, c3, q3, o3⟩ := Runs.locals_on (onCol_nodup (P := P) (nb := nb) (band := band) (j := j)) c2
    (fun r => (rows band (P.on r) j).map (updX n band (P.on r) j))
    (fun r s' => ∃ p, s' = { g2.st r with pX := p } ∧
      HR P n nb band j r (fun x c => -(1 / 2) * (∑ l ∈ Finset.range (nr n band j), V x l * w2 l c) + X x c) p)
    (fun r hr => by
      obtain ⟨p1, f1, e1, _, _⟩ := q1 r hr
      obtain ⟨p2, e2, hp2⟩ := q2 r hr
      obtain ⟨p, a1, a2⟩ := h.updX_all (hsub r hr) (V := V) (X := X) (w2 := w2) (s := g2.st r) (by rw [e2, e1]; exact hV r hr)
        (by rw [e2, e1]; exact hX r hr) (by rw [e2]; exact hp2) hts
      exact ⟨_, a1, p, rfl, a2⟩)
  refine ⟨g3, (Runs.if_append (Runs.if_append r1 r2) r3).congr fun r => ?_, c3, fun r hr => ?_, fun r hr hr' => ?_⟩
  · by_cases hr : r ∈ onCol P nb band j
    · rw [if_pos hr, if_pos hr]
      unfold xPart
      simp only [List.map_append, List.map_map, List.append_assoc, List.map_cons, List.map_nil]
      rfl
    · rw [if_neg hr, if_neg hr]
  · obtain ⟨p1, f1, e1, _, _⟩ := q1 r hr
    obtain ⟨p2, e2, hp2⟩ := q2 r hr
    obtain ⟨p3, e3, hp3⟩ := q3 r hr
    refine ⟨p3, p2, ?_, hp3⟩
    rw [e3, e2, e1]
  · rw [o3 r hr', o2 r hr hr', o1 r hr']

end
end DistRed
end DLAF
