import Verif.Lemmas.PermutePack
/-! # C36 permutations of rows and columns -/
namespace DLAF
variable {K : Type}

/-! ### auxiliary facts -/

theorem invertIndex_unique {N : Nat} {perm a b : List Nat} (hp : C34.IsPerm N perm) (ha : a.length = N) (hb : b.length = N) :
    invertIndex perm a = invertIndex perm b := by
  obtain ⟨x, x1, x2, x3, x4⟩ := C34.C34_invert hp ha
  obtain ⟨y, y1, y2, y3, y4⟩ := C34.C34_invert hp hb
  rw [x1, y1]
  congr 1
  apply List.ext_getElem?
  intro j
  by_cases hj : j < N
  · obtain ⟨i, hi, he⟩ := List.getElem_of_mem (hp.mem hj)
    have h1 := x3 i hi
    have h2 := y3 i hi
    rw [he] at h1 h2
    rw [h1, h2]
  · rw [List.getElem?_eq_none (by rw [x2.length]; omega), List.getElem?_eq_none (by rw [y2.length]; omega)]

theorem find_pair {α : Type} [DecidableEq α] {β : Type} (l : List α) (g : α → β) {r : α} (hr : r ∈ l) :
    ((l.map fun r => (r, g r)).find? fun x => decide (x.1 = r)) = some (r, g r) := by
  induction l with
  | nil => simp at hr
  | cons a l ih =>
    rw [List.map_cons, List.find?_cons]
    by_cases h : a = r
    · simp [h]
    · rw [List.mem_cons] at hr
      have hr' : r ∈ l := by
        rcases hr with h' | h'
        · exact absurd h'.symm h
        · exact h'
      simp only [h, decide_false]
      exact ih hr'

theorem forM'_ranks {X : Type*} {S : Type*} [DecidableEq X] {body : (X → S) → X → Option (X → S)} {Q : X → S → Prop} :
    ∀ {l : List X} (_ : l.Nodup) {s0 : X → S}
    (_ : ∀ r ∈ l, ∀ s, s r = s0 r → ∃ s', body s r = some s' ∧ Q r (s' r) ∧ ∀ r', r' ≠ r → s' r' = s r'),
    ∃ s', forM' l s0 body = some s' ∧ (∀ r ∈ l, Q r (s' r)) ∧ ∀ r, r ∉ l → s' r = s0 r
  | [], _, s0, _ => ⟨s0, rfl, by simp, fun _ _ => rfl⟩
  | r :: l, hnd, s0, h => by
    obtain ⟨h1, h2⟩ := List.nodup_cons.1 hnd
    obtain ⟨s1, e1, q1, o1⟩ := h r (by simp) s0 rfl
    obtain ⟨s2, e2, q2, o2⟩ := forM'_ranks (Q := Q) h2 (s0 := s1) (body := body) (by
      intro r' hr' s hs
      have hne : r' ≠ r := fun he => h1 (he ▸ hr')
      exact h r' (by simp [hr']) s (by rw [hs, o1 r' hne]))
    refine ⟨s2, by rw [forM'_cons, e1, Option.bind_some, e2], ?_, ?_⟩
    · intro r' hr'
      rcases List.mem_cons.1 hr' with rfl | hr'
      · rw [o2 r' h1]; exact q1
      · exact q2 r' hr'
    · intro r' hr'
      simp only [List.mem_cons, not_or] at hr'
      rw [o2 r' hr'.2, o1 r' hr'.1]

theorem Plain.inTiles_range {p : Params} (hp : Plain p) {ib ie : Int} (h0 : 0 ≤ ib) (h1 : ib < ie) (h2 : ie ≤ p.dist.nrTiles)
    {s : Nat} (hs : s < p.rangeSize ib ie) : inTiles p ib ie (p.rangeBegin ib + s) := by
  obtain ⟨s1, s2⟩ := (hp.rangeSize_spec h0 h1 h2 s).1 hs
  have ht : 0 < p.tile := hp.valid.2.2.1
  have hb : p.rangeBegin ib = ib * p.tile := by
    unfold Params.rangeBegin; rw [hp.begin h0]; omega
  unfold inTiles
  rw [hp.tileOf, hb]
  exact ⟨(Int.le_ediv_iff_mul_le ht).2 (by omega), Int.ediv_lt_of_lt_mul ht (by omega)⟩

/-- The element-wise result. -/
def permMat (C : Coord) (f : Int → Int) (p q : Params) (ib ie : Int) (A B0 : Int → Int → K) (i j : Int) : K :=
  match C with
  | .Row => if inTiles p ib ie i ∧ inTiles q ib ie j then A (f i) j else B0 i j
  | .Col => if inTiles p ib ie j ∧ inTiles q ib ie i then A i (f j) else B0 i j

theorem permMat_along (C : Coord) (f : Int → Int) (p q : Params) (ib ie : Int) (A B0 : Int → Int → K) (x y : Int) :
    elemAlong C (permMat C f p q ib ie A B0) x y =
      if inTiles p ib ie x ∧ inTiles q ib ie y then elemAlong C A (f x) y else elemAlong C B0 x y := by
  cases C <;> rfl

theorem StoresAt.unchanged {C : Coord} {P : Params2} {B0 B : Int → Int → K} {r : Coord2} {t : Coord2 → Blk K}
    (h : StoresAt P B0 r t) (hC : Plain (P.at' C r)) (hO : Plain (P.at' C.orth r)) {ib ie : Int} (h0 : 0 ≤ ib) (h1 : ib < ie)
    (e1 : ie ≤ (P.at' C r).dist.nrTiles) (e2 : ie ≤ (P.at' C.orth r).dist.nrTiles) {n nb m nbo : Nat} {lt0 lo0 : Int}
    (w : LocalWin (P.at' C r) ib ie n nb lt0) (wo : LocalWin (P.at' C.orth r) ib ie m nbo lo0) (hz : n = 0 ∨ m = 0)
    (hout : ∀ x y, 0 ≤ x → 0 ≤ y →
      ¬ ((ib ≤ (P.at' C r).tileOf x ∧ (P.at' C r).tileOf x < ie) ∧
        (ib ≤ (P.at' C.orth r).tileOf y ∧ (P.at' C.orth r).tileOf y < ie)) → elemAlong C B x y = elemAlong C B0 x y) :
    StoresAt P B r t := by
  refine h.replace hC hO h0 h1 e1 e2 w wo ?_ (fun _ _ => rfl) ?_ hout
  · intro a b ha hb; omega
  · intro x y hx hy; omega

/-! ### C36 -/

/-- **Distributed permutation.**  For every square matrix distributed in square tiles over any grid, every range of tiles
`[ib, ie)` and every permutation `perms` of the range, the distributed `permute` ends without error on all processes,
whatever the order of the tasks and the initial contents of the buffers; the output is the input with the rows or columns
permuted in the block, and is unchanged outside. -/
theorem C36_distributed (C : Coord) {P : Params2} (hrow : Plain P.row) (hcol : Plain P.col) (hsize : P.row.size = P.col.size)
    (htile : P.row.tile = P.col.tile) {ib ie : Int} (h0 : 0 ≤ ib) (h1 : ib ≤ ie) (h2 : ie ≤ P.row.dist.nrTiles)
    {perms : List Nat} (hlen : perms.length = P.row.size)
    (hperm : C34.IsPerm (P.row.dist.global_tile_element_distance ib ie).toNat
      ((perms.drop (P.row.tileBegin ib).toNat).take (P.row.dist.global_tile_element_distance ib ie).toNat))
    {order : Nat → Coord2 → List Nat}
    (horder : ∀ k, ∀ r ∈ P.ranks,
      (order k r).Perm (List.range (((P.on r).get C).local_element_distance_from_global_tile ib ie).toNat))
    {junkIndex : Coord2 → List Nat} (hjunk : ∀ r ∈ P.ranks, (junkIndex r).length = P.row.size)
    (junk : Nat → Coord2 → Coord2 → Nat → Nat → K) {A B0 : Int → Int → K} {tin tout : Coord2 → Coord2 → Blk K}
    (hin : StoresElems P A tin) (hout : StoresElems P B0 tout) :
    ∃ out B, permuteDist C P ib ie P.row.tile perms order junkIndex junk tin tout = some out ∧
      Permuted C P ib ie perms A B0 B ∧ StoresElems P B out := by
  have plain : ∀ c, Plain (P.get c) := fun c => by cases c <;> assumption
  have hsz : ∀ c, (P.get c).size = P.row.size := fun c => by cases c; exacts [rfl, hsize.symm]
  have htl : ∀ c, (P.get c).tile = P.row.tile := fun c => by cases c; exacts [rfl, htile.symm]
  have hchk : permuteChecks P P.row.tile perms.length P.row.size ib ie P.row.dist.nrTiles = true := by
    unfold permuteChecks
    simp [hsize, hrow.block, hcol.block, htile, hlen, h0, h1]
    have : P.row.dist.nrTiles = P.row.dist.nrTiles := rfl
    omega
  have hnt : ∀ c, (P.get c).dist.nrTiles = P.row.dist.nrTiles := by
    intro c
    rw [(plain c).nrTiles_def, hrow.nrTiles_def, hsz c, htl c]
  have htb : (P.get C).tileBegin ib = P.row.tileBegin ib := by
    unfold Params.tileBegin; rw [htl C, (plain C).offset, hrow.offset]
  have hgd : (P.get C).rangeSize ib ie = (P.row.dist.global_tile_element_distance ib ie).toNat := by
    unfold Params.rangeSize Dist1.global_tile_element_distance
    rw [(plain C).begin h0, (plain C).begin (show 0 ≤ ie by omega), hrow.begin h0, hrow.begin (show 0 ≤ ie by omega), hnt C, htl C,
      show (P.get C).dist.size = P.row.dist.size from hsz C]
  have hrb : (P.get C).rangeBegin ib = P.row.tileBegin ib := by
    rw [← htb, (plain C).tileBegin h0]
    unfold Params.rangeBegin
    rw [(plain C).begin h0]; omega
  suffices H : ∃ out, permuteDist C P ib ie P.row.tile perms order junkIndex junk tin tout = some out ∧
      ∀ r ∈ P.ranks, StoresAt P (permMat C (fun x => (P.get C).tileBegin ib + perms.getD x.toNat 0) (P.get C) (P.get C.orth)
        ib ie A B0) r (out r) by
    obtain ⟨out, e, h⟩ := H
    refine ⟨out, permMat C (fun x => (P.get C).tileBegin ib + perms.getD x.toNat 0) (P.get C) (P.get C.orth) ib ie A B0,
      e, ⟨fun x y _ _ _ hx hy => ?_, fun x y _ _ hxy => ?_⟩, h⟩
    · rw [permMat_along, if_pos ⟨hx, hy⟩]
    · rw [permMat_along, if_neg hxy]
  unfold permuteDist
  rw [if_pos hchk]
  by_cases hie : ib = ie
  · -- nothing to do
    subst hie
    rw [mapOpt_eq_map (g := fun r => (r, (none : Option (PermData K))))
      (fun r _ => by unfold permutePack; simp), Option.bind_some]
    obtain ⟨s', e, q, _⟩ := forM'_ranks (X := Coord2) (S := Coord2 → Blk K)
      (body := fun s r =>
        match ((P.ranks.map fun r => (r, (none : Option (PermData K)))).find? fun x => decide (x.1 = r)).bind Prod.snd with
        | none => some s
        | some D => (permuteUnpack C P r ib (order 1 r) (order 2 r) (fun r =>
            ((P.ranks.map fun r => (r, (none : Option (PermData K)))).find? fun x => decide (x.1 = r)).bind Prod.snd) D
            (junk 1 r) (s r)).map fun t => set1 s r t)
      (Q := fun r t => StoresAt P
        (permMat C (fun x => (P.get C).tileBegin ib + perms.getD x.toNat 0) (P.get C) (P.get C.orth) ib ib A B0) r t)
      P.ranks_nodup (s0 := tout) (by
        intro r hr s hs
        rw [find_pair P.ranks (fun _ => (none : Option (PermData K))) hr]
        refine ⟨s, rfl, ?_, fun _ _ => rfl⟩
        rw [hs]
        have : permMat C (fun x => (P.get C).tileBegin ib + perms.getD x.toNat 0) (P.get C) (P.get C.orth) ib ib A B0 = B0 := by
          funext i j
          unfold permMat inTiles
          cases C <;> exact if_neg (by omega)
        rw [this]
        exact hout r hr)
    exact ⟨s', e, q⟩
  have h1' : ib < ie := by omega
  obtain ⟨N, hN⟩ : ∃ N, N = (P.get C).rangeSize ib ie := ⟨_, rfl⟩
  obtain ⟨perm, hpm⟩ : ∃ perm, perm = (perms.drop ((P.get C).rangeBegin ib).toNat).take N := ⟨_, rfl⟩
  have hperm' : C34.IsPerm N perm := by rw [hpm, hN, hrb, hgd]; exact hperm
  obtain ⟨inv, i1, i2, i3, i4⟩ := C34.C34_invert hperm' (out := List.replicate N 0) (by simp)
  have onp : ∀ r ∈ P.ranks, ∀ c, Plain (P.at' c r) := fun r hr c =>
    (plain c).onRank (Params2.mem_ranks.1 hr c).1 (Params2.mem_ranks.1 hr c).2
  have ent : ∀ r c, ie ≤ (P.at' c r).dist.nrTiles := fun r c => by
    show ie ≤ (P.get c).dist.nrTiles
    rw [hnt c]; exact h2
  have hrl := (plain C).range_le h0 h1' (by rw [hnt C]; exact h2)
  rw [hsz C] at hrl
  have winC := fun r (hr : r ∈ P.ranks) c => (onp r hr c).localWin h0 h1 (ent r c)
  -- what every process packs
  have hpack : ∀ r ∈ P.ranks, ∀ {n nb m nbo : Nat} {lt0 lo0 : Int}, LocalWin (P.at' C r) ib ie n nb lt0 →
      LocalWin (P.at' C.orth r) ib ie m nbo lo0 →
      (n = 0 ∨ m = 0 → permutePack C P r ib ie perms (order 0 r) (junkIndex r) (junk 0 r) (tin r) = some none) ∧
      (0 < n → 0 < m → ∃ D, permutePack C P r ib ie perms (order 0 r) (junkIndex r) (junk 0 r) (tin r) = some (some D) ∧
        PackSpec C N (P.get C).grid.toNat ((P.get C).ownerSub ib) perm inv n m nb nbo
          (fun s y => elemAlong C A ((P.get C).rangeBegin ib + s)
            ((P.get C.orth).rangeBegin ib + subOf (P.at' C.orth r) ib lo0 nbo y)) (r.get C).toNat D) := by
    intro r hr n nb m nbo lt0 lo0 w wo
    have ho := horder 0 r hr
    have hdC : (P.on r).get C = (P.at' C r).dist := by cases C <;> rfl
    rw [hdC, w.n_eq, Int.toNat_natCast] at ho
    have hj := hjunk r hr
    have hinv : invertIndex perm ((junkIndex r).take ((P.at' C r).rangeSize ib ie)) = some inv := by
      have hNN : (P.at' C r).rangeSize ib ie = N := hN.symm
      rw [hNN, ← i1]
      refine invertIndex_unique hperm' ?_ (by simp)
      rw [List.length_take]
      omega
    have := permutePack_spec (K := K) (onp r hr C) (onp r hr C.orth) h0 h1' (ent r C) (ent r C.orth) w wo
      (perms := perms) (junkIndex := junkIndex r) (by rw [hlen]; exact (hsz C).symm) (by rw [hj]; exact (le_of_eq (hsz C)))
      (perm := perm) (inv := inv) (by rw [hpm, hN]; rfl) (by rw [hN] at hperm'; exact hperm') hinv (by rw [hN] at i2; exact i2) ho (junk 0 r) (hin r hr)
    rw [hN]
    exact this
  have hsome : ∀ r ∈ P.ranks, ∃ D, permutePack C P r ib ie perms (order 0 r) (junkIndex r) (junk 0 r) (tin r) = some D := by
    intro r hr
    obtain ⟨n, nb, lt0, w⟩ := winC r hr C
    obtain ⟨m, nbo, lo0, wo⟩ := winC r hr C.orth
    obtain ⟨p1, p2⟩ := hpack r hr w wo
    by_cases hz : n = 0 ∨ m = 0
    · exact ⟨_, p1 hz⟩
    · obtain ⟨D, hD, _⟩ := p2 (by omega) (by omega)
      exact ⟨_, hD⟩
  obtain ⟨g, hg⟩ : ∃ g : Coord2 → Option (PermData K), ∀ r ∈ P.ranks,
      permutePack C P r ib ie perms (order 0 r) (junkIndex r) (junk 0 r) (tin r) = some (g r) :=
    ⟨fun r => (permutePack C P r ib ie perms (order 0 r) (junkIndex r) (junk 0 r) (tin r)).getD none, fun r hr => by
      obtain ⟨D, hD⟩ := hsome r hr
      dsimp only
      rw [hD]; rfl⟩
  rw [mapOpt_eq_map (g := fun r => (r, g r)) (fun r hr => by rw [hg r hr]; rfl), Option.bind_some]
  have hdat : ∀ r ∈ P.ranks, ((P.ranks.map fun r => (r, g r)).find? fun x => decide (x.1 = r)).bind Prod.snd = g r := by
    intro r hr
    rw [find_pair P.ranks g hr]; rfl
  obtain ⟨s', e, q, _⟩ := forM'_ranks (X := Coord2) (S := Coord2 → Blk K)
    (body := fun s r =>
      match ((P.ranks.map fun r => (r, g r)).find? fun x => decide (x.1 = r)).bind Prod.snd with
      | none => some s
      | some D => (permuteUnpack C P r ib (order 1 r) (order 2 r) (fun r =>
          ((P.ranks.map fun r => (r, g r)).find? fun x => decide (x.1 = r)).bind Prod.snd) D
          (junk 1 r) (s r)).map fun t => set1 s r t)
    (Q := fun r t => StoresAt P
      (permMat C (fun x => (P.get C).tileBegin ib + perms.getD x.toNat 0) (P.get C) (P.get C.orth) ib ie A B0) r t)
    P.ranks_nodup (s0 := tout) (by
      intro r hr s hs
      rw [hdat r hr]
      obtain ⟨n, nb, lt0, w⟩ := winC r hr C
      obtain ⟨m, nbo, lo0, wo⟩ := winC r hr C.orth
      obtain ⟨p1, p2⟩ := hpack r hr w wo
      have hB : ∀ x y : Int, 0 ≤ x → 0 ≤ y →
          ¬ ((ib ≤ (P.at' C r).tileOf x ∧ (P.at' C r).tileOf x < ie) ∧
            (ib ≤ (P.at' C.orth r).tileOf y ∧ (P.at' C.orth r).tileOf y < ie)) →
          elemAlong C (permMat C (fun x => (P.get C).tileBegin ib + perms.getD x.toNat 0) (P.get C) (P.get C.orth) ib ie A B0) x y =
            elemAlong C B0 x y := by
        intro x y _ _ hxy
        rw [permMat_along]
        exact if_neg hxy
      by_cases hz : n = 0 ∨ m = 0
      · have hgr : g r = none := by
          have := hg r hr
          rw [p1 hz] at this
          exact (Option.some.inj this).symm
        rw [hgr]
        refine ⟨s, rfl, ?_, fun _ _ => rfl⟩
        rw [hs]
        exact StoresAt.unchanged (hout r hr) (onp r hr C) (onp r hr C.orth) h0 h1' (ent r C) (ent r C.orth) w wo hz hB
      · have hn : 0 < n := by omega
        have hm : 0 < m := by omega
        obtain ⟨D, hD, hDs⟩ := p2 hn hm
        have hgr : g r = some D := by
          have := hg r hr
          rw [hD] at this
          exact (Option.some.inj this).symm
        rw [hgr]
        have hrC := Params2.mem_ranks.1 hr
        -- the partners
        have hdata : ∀ q < (P.get C).grid.toNat,
            (((P.ranks.map fun r => (r, g r)).find? fun x => decide (x.1 = r.setAlong C q)).bind Prod.snd = none ∧
              ownList ((P.get C).ownerSub ib) N q = []) ∨
            ∃ n' Q, ((P.ranks.map fun r => (r, g r)).find? fun x => decide (x.1 = r.setAlong C q)).bind Prod.snd = some Q ∧
              PackSpec C N (P.get C).grid.toNat ((P.get C).ownerSub ib) perm inv n' m nb nbo
                (fun s y => elemAlong C A ((P.get C).rangeBegin ib + s)
                  ((P.get C.orth).rangeBegin ib + subOf (P.at' C.orth r) ib lo0 nbo y)) q Q := by
          intro q hq
          have hq1 : (r.setAlong C q).get C = q := by unfold Coord2.setAlong; rw [mk2_get]
          have hq2 : (r.setAlong C q).get C.orth = r.get C.orth := by unfold Coord2.setAlong; rw [mk2_get_orth]
          have hqr : r.setAlong C q ∈ P.ranks := by
            rw [Params2.mem_ranks]
            intro c
            have hc : c = C ∨ c = C.orth := by cases c <;> cases C <;> simp [Coord.orth]
            rcases hc with rfl | rfl
            · rw [hq1]; omega
            · rw [hq2]; exact hrC _
          have ho : P.at' C.orth (r.setAlong C q) = P.at' C.orth r := by
            unfold Params2.at'; rw [hq2]
          rw [hdat _ hqr]
          obtain ⟨n', nb', lt', w'⟩ := winC _ hqr C
          have hnb' : nb' = nb := by
            have a := w'.nb_eq
            have b := w.nb_eq
            have : ((nb' : Nat) : Int) = nb := a.symm.trans b
            omega
          subst hnb'
          have wo' : LocalWin (P.at' C.orth (r.setAlong C q)) ib ie m nbo lo0 := by rw [ho]; exact wo
          obtain ⟨p1', p2'⟩ := hpack _ hqr w' wo'
          by_cases hz' : n' = 0
          · left
            have hgq : g (r.setAlong C q) = none := by
              have := hg _ hqr
              rw [p1' (.inl hz')] at this
              exact (Option.some.inj this).symm
            refine ⟨hgq, ?_⟩
            have hl := w'.own_len (onp _ hqr C) h0 h1' (ent _ C)
            have hrk : (P.at' C (r.setAlong C q)).rank = (q : Int) := hq1
            rw [hrk, hz', Int.toNat_natCast] at hl
            have hl' : (ownList ((P.get C).ownerSub ib) N q).length = 0 := by rw [hN]; exact hl
            exact List.eq_nil_of_length_eq_zero hl'
          · right
            obtain ⟨Q, hQ, hQs⟩ := p2' (by omega) hm
            refine ⟨n', Q, ?_, ?_⟩
            · have := hg _ hqr
              rw [hQ] at this
              exact (Option.some.inj this).symm
            · rw [ho, hq1, Int.toNat_natCast] at hQs
              exact hQs
        have hbegin : nextLocal (P.on r) ib = C.mk2 lt0 lo0 := by
          have a := w.lt0_eq
          have b := wo.lt0_eq
          cases C
          · exact congrArg₂ Coord2.mk a b
          · exact congrArg₂ Coord2.mk b a
        have hdC : (P.on r).get C = (P.at' C r).dist := by cases C <;> rfl
        have hord : ∀ k, (order k r).Perm (List.range n) := by
          intro k
          have := horder k r hr
          rw [hdC, w.n_eq, Int.toNat_natCast] at this
          exact this
        have hw0 := ((storesElems_iff.1 hout) r hr).win (onp r hr C) (onp r hr C.orth) h0 h1' (ent r C) (ent r C.orth) w wo
        obtain ⟨t, t1, t2, t3, t4⟩ := permuteUnpack_spec (P := P) (C := C) (data := fun r =>
          ((P.ranks.map fun r => (r, g r)).find? fun x => decide (x.1 = r)).bind Prod.snd) hperm' i2 i3 i4 w.nb_eq wo.nb_eq w.nb_pos wo.nb_pos hm
          (hrC C).1 (hrC C).2 rfl rfl (fun s hs => by
            have := ((plain C).owner_range h0 h1' (by rw [hnt C]; exact h2) (s := s) (by rw [← hN]; exact hs)).2
            exact this) (junk 1 r) hDs hdata ib (hord 1) (hord 2) (tout := s r) (by rw [hs, hbegin]; exact hw0.1)
        rw [hbegin] at t2 t3 t4
        refine ⟨set1 s r t, by dsimp only; rw [t1]; rfl, ?_, fun r' hr' => set1_ne _ _ hr'⟩
        rw [set1_same]
        refine StoresAt.replace (t0 := tout r) (hout r hr) (onp r hr C) (onp r hr C.orth) h0 h1' (ent r C) (ent r C.orth) w wo t2
          (fun c hc => by rw [t3 c hc, hs]) ?_ hB
        intro x y hx hy
        rw [t4 x y hx hy, permMat_along]
        have hg1 := w.own_getD (onp r hr C) h0 h1' (ent r C) hx
        have sx := (w.sub_spec (onp r hr C) h0 h1' (ent r C) hx).2.1
        have sy := (wo.sub_spec (onp r hr C.orth) h0 h1' (ent r C.orth) hy).2.1
        have hix := (onp r hr C).inTiles_range h0 h1' (ent r C) sx
        have hiy := (onp r hr C.orth).inTiles_range h0 h1' (ent r C.orth) sy
        rw [if_pos ⟨hix, hiy⟩]
        have hg2 : (ownList ((P.get C).ownerSub ib) N (r.get C).toNat).getD x 0 = subOf (P.at' C r) ib lt0 nb x := by
          rw [hN]; exact hg1
        rw [hg2]
        have hpe : perm.getD (subOf (P.at' C r) ib lt0 nb x) 0 =
            perms.getD ((P.at' C r).rangeBegin ib + subOf (P.at' C r) ib lt0 nb x).toNat 0 := by
          have hsN : subOf (P.at' C r) ib lt0 nb x < N := by rw [hN]; exact sx
          have hrb0 : 0 ≤ (P.get C).rangeBegin ib := hrl.1
          have e1 : ((P.at' C r).rangeBegin ib + subOf (P.at' C r) ib lt0 nb x).toNat =
              ((P.get C).rangeBegin ib).toNat + subOf (P.at' C r) ib lt0 nb x := by
            have : (P.at' C r).rangeBegin ib = (P.get C).rangeBegin ib := rfl
            rw [this]; omega
          rw [e1, hpm, List.getD_eq_getElem?_getD, List.getD_eq_getElem?_getD, List.getElem?_take, if_pos hsN, List.getElem?_drop]
        rw [hpe]
        have hfin : (P.get C).rangeBegin ib = (P.get C).tileBegin ib := by rw [hrb, htb]
        rw [hfin]
        rfl)
  exact ⟨s', e, q⟩

theorem LocalWin.local_index {p : Params} (hp : Plain p) {ib ie : Int} (h0 : 0 ≤ ib) (h1 : ib < ie)
    (h2 : ie ≤ p.dist.nrTiles) {n nb : Nat} {lt0 : Int} (w : LocalWin p ib ie n nb lt0) {x : Nat} (hx : x < n) :
    p.dist.global_element_from_local_element (lt0 * p.tile + x) = p.rangeBegin ib + subOf p ib lt0 nb x ∧
    p.dist.local_element_from_global_element (p.rangeBegin ib + subOf p ib lt0 nb x) = lt0 * p.tile + x := by
  have hax : x / nb * nb < n := lt_of_le_of_lt (Nat.div_mul_le_self x nb) hx
  obtain ⟨r1, r2, r3, r4, r5⟩ := w.range (x / nb) hax
  have hmod := Nat.mod_add_div x nb
  rw [Nat.mul_comm] at hmod
  have hml := Nat.mod_lt x w.nb_pos
  obtain ⟨e1, _, _⟩ := w.sub_spec hp h0 h1 h2 hx
  generalize x % nb = a at *
  generalize x / nb = nbx at *
  have hl0 := w.lt0_nonneg
  have hlo : p.dist.local_tile_element_offset = 0 := by
    unfold Dist1.local_tile_element_offset; rw [hp.geo]; simp
  have hle : p.dist.local_element_from_local_tile_and_tile_element (lt0 + nbx) a = lt0 * p.tile + x := by
    unfold Dist1.local_element_from_local_tile_and_tile_element util.element_from_tile_and_tile_element
    rw [hlo]
    show (lt0 + nbx) * p.tile + a - _ = _
    rw [Int.add_mul, w.nb_eq]
    have : (nbx : Int) * nb = ((nbx * nb : Nat) : Int) := by push_cast; rfl
    rw [this]
    simp
    omega
  have hg0 : 0 ≤ p.dist.global_tile_from_local_tile (lt0 + nbx) := by omega
  have hsz : p.dist.local_tile_size_of (lt0 + nbx) = p.dist.global_tile_size_of (p.dist.global_tile_from_local_tile (lt0 + nbx)) :=
    hp.valid.wf.local_tsz_eq (by omega) r1
  obtain ⟨c1, c2⟩ := hp.valid.local_combine (t := lt0 + nbx) (te := a) (by omega) r1 (by omega) (by rw [hsz, r5]; omega)
  rw [hle] at c1 c2
  constructor
  · unfold Dist1.global_element_from_local_element
    dsimp only
    rw [c1, c2, e1]
  · obtain ⟨e, ⟨_, _, g2, g3⟩, g4, _⟩ := C03_global_combine hp.valid hg0 (by omega) (te := (a : Int)) (by omega) (by rw [r5]; omega)
    rw [← e1, ← g4]
    unfold Dist1.local_element_from_global_element Dist1.local_tile_from_global_element
    obtain ⟨q1, _⟩ := C02_local_global_local hp.valid (lt := lt0 + nbx) (by omega) r1
    rw [g2, q1, if_neg (by omega), g3, hle]

/-- **Permutation of the local part** of a distributed (or local) matrix on process `r`: for every square matrix in square
tiles on any grid, every range of tiles and every index vector with entries in the local part of the range, `permute` ends
without error and moves the local rows (columns) of the block as the index vector says, for every order of the tasks. -/
theorem C36_local_part (C : Coord) {P : Params2} (hrow : Plain P.row) (hcol : Plain P.col) (hsize : P.row.size = P.col.size)
    (htile : P.row.tile = P.col.tile) {r : Coord2} (hr : r ∈ P.ranks) {ib ie : Int} (h0 : 0 ≤ ib) (h1 : ib ≤ ie)
    (h2 : ie ≤ P.row.dist.nrTiles) {perms : List Nat} (hlen : perms.length = ((P.on r).get C).localSize)
    {n first : Nat} (hn : ((P.on r).get C).local_element_distance_from_global_tile ib ie = n)
    (hfirst : ((P.on r).get C).next_local_tile_from_global_tile ib * P.row.tile = first)
    (hperm : ∀ x, x < n → ∃ q, perms[first + x]? = some q ∧ q < n)
    {order : List Nat} (horder : order.Perm (List.range n)) {A B0 : Int → Int → K} {tin tout : Coord2 → Blk K}
    (hin : StoresAt P A r tin) (hout : StoresAt P B0 r tout) :
    ∃ out B, permuteLocal C P r ib ie P.row.tile perms order tin tout = some out ∧
      PermutedLocally C P r ib ie perms A B0 B ∧ StoresAt P B r out := by
  have plain : ∀ c, Plain (P.get c) := fun c => by cases c <;> assumption
  have hsz : ∀ c, (P.get c).size = P.row.size := fun c => by cases c; exacts [rfl, hsize.symm]
  have htl : ∀ c, (P.get c).tile = P.row.tile := fun c => by cases c; exacts [rfl, htile.symm]
  have hdC : (P.on r).get C = (P.at' C r).dist := by cases C <;> rfl
  have hdO : (P.on r).get C.orth = (P.at' C.orth r).dist := by cases C <;> rfl
  have hnr : (P.on r).row.nrTiles = P.row.dist.nrTiles := rfl
  have hchk : permuteChecks P P.row.tile perms.length ((P.on r).get C).localSize ib ie (P.on r).row.nrTiles = true := by
    unfold permuteChecks
    rw [hnr]
    simp [hsize, hrow.block, hcol.block, htile, hlen, h0, h1]
    omega
  have hnt : ∀ c, (P.get c).dist.nrTiles = P.row.dist.nrTiles := by
    intro c
    rw [(plain c).nrTiles_def, hrow.nrTiles_def, hsz c, htl c]
  suffices H : ∃ out, permuteLocal C P r ib ie P.row.tile perms order tin tout = some out ∧
      StoresAt P (permMat C (fun x => (P.at' C r).dist.global_element_from_local_element
      ((P.at' C r).dist.next_local_tile_from_global_tile ib * (P.get C).tile +
        perms.getD ((P.at' C r).dist.local_element_from_global_element x).toNat 0)) (P.get C) (P.get C.orth)
        ib ie A B0) r out by
    obtain ⟨out, e, h⟩ := H
    refine ⟨out, _, e, ⟨fun x y _ _ _ hx hy _ => ?_, fun x y _ _ hxy => ?_⟩, h⟩
    · rw [permMat_along, if_pos ⟨hx, hy⟩]
    · rw [permMat_along, if_neg hxy]
  unfold permuteLocal
  dsimp only
  rw [if_pos hchk]
  by_cases hie : ib = ie
  · rw [if_pos hie]
    refine ⟨tout, rfl, ?_⟩
    subst hie
    have : ∀ f, permMat C f (P.get C) (P.get C.orth) ib ib A B0 = B0 := by
      intro f
      funext i j
      unfold permMat inTiles
      cases C <;> exact if_neg (by omega)
    rw [this]
    exact hout
  have h1' : ib < ie := by omega
  have onp : ∀ c, Plain (P.at' c r) := fun c =>
    (plain c).onRank (Params2.mem_ranks.1 hr c).1 (Params2.mem_ranks.1 hr c).2
  have ent : ∀ c, ie ≤ (P.at' c r).dist.nrTiles := fun c => by
    show ie ≤ (P.get c).dist.nrTiles
    rw [hnt c]; exact h2
  obtain ⟨n', nb, lt0, w⟩ := (onp C).localWin h0 h1 (ent C)
  obtain ⟨m, nbo, lo0, wo⟩ := (onp C.orth).localWin h0 h1 (ent C.orth)
  have hnn : n' = n := by
    have := w.n_eq
    rw [hdC] at hn
    omega
  subst hnn
  have hB : ∀ (f : Int → Int) (x y : Int), 0 ≤ x → 0 ≤ y →
      ¬ ((ib ≤ (P.at' C r).tileOf x ∧ (P.at' C r).tileOf x < ie) ∧
        (ib ≤ (P.at' C.orth r).tileOf y ∧ (P.at' C.orth r).tileOf y < ie)) →
      elemAlong C (permMat C f (P.get C) (P.get C.orth) ib ie A B0) x y = elemAlong C B0 x y := by
    intro f x y _ _ hxy
    rw [permMat_along]
    exact if_neg hxy
  rw [if_neg hie, hdC, hdO, w.n_eq, wo.n_eq]
  by_cases hz : n' = 0 ∨ m = 0
  · rw [if_pos (by omega)]
    exact ⟨tout, rfl, hout.unchanged (onp C) (onp C.orth) h0 h1' (ent C) (ent C.orth) w wo hz (hB _)⟩
  · rw [if_neg (by omega)]
    have hbegin : nextLocal (P.on r) ib = C.mk2 lt0 lo0 := by
      have a := w.lt0_eq
      have b := wo.lt0_eq
      cases C
      · exact congrArg₂ Coord2.mk a b
      · exact congrArg₂ Coord2.mk b a
    have hnb : (P.get C).tile = (nb : Int) := w.nb_eq
    have hnbo : (P.get C.orth).tile = (nbo : Int) := wo.nb_eq
    obtain ⟨shp, elm⟩ := hin.win (onp C) (onp C.orth) h0 h1' (ent C) (ent C.orth) w wo
    obtain ⟨shp0, _⟩ := hout.win (onp C) (onp C.orth) h0 h1' (ent C) (ent C.orth) w wo
    rw [hdC, w.lt0_eq] at hfirst
    rw [hbegin, mk2_get, hfirst, hnb, hnbo, Int.toNat_natCast]
    obtain ⟨t, t1, t2, t3, t4⟩ := bulkPermute_spec (K := K) w.nb_pos wo.nb_pos (by omega)
      (perm := (perms.drop first).map Int.ofNat) (cond := fun _ => true) (oo := C.mk2 lt0 lo0) shp
      (horder.nodup_iff.2 List.nodup_range) (order := order) (by
        intro x hx
        have hx' : x < n' := List.mem_range.1 (horder.mem_iff.1 hx)
        obtain ⟨q, q1, q2⟩ := hperm x hx'
        exact ⟨hx', (q : Int), by rw [List.getElem?_map, List.getElem?_drop, q1]; rfl, fun _ => by omega⟩) shp0
    refine ⟨t, t1, ?_⟩
    refine hout.replace (onp C) (onp C.orth) h0 h1' (ent C) (ent C.orth) w wo t2 t3 ?_ (hB _)
    intro x y hx hy
    obtain ⟨q, q1, q2⟩ := hperm x hx
    rw [(t4 x y hx hy).1 (q : Int) (horder.mem_iff.2 (List.mem_range.2 hx))
      (by rw [List.getElem?_map, List.getElem?_drop, q1]; rfl) rfl, Int.toNat_natCast, elm q y q2 hy, permMat_along]
    have sx := (w.sub_spec (onp C) h0 h1' (ent C) hx).2.1
    have sy := (wo.sub_spec (onp C.orth) h0 h1' (ent C.orth) hy).2.1
    have hix := (onp C).inTiles_range h0 h1' (ent C) sx
    have hiy := (onp C.orth).inTiles_range h0 h1' (ent C.orth) sy
    rw [if_pos ⟨hix, hiy⟩]
    obtain ⟨l1, _⟩ := w.local_index (onp C) h0 h1' (ent C) q2
    obtain ⟨_, l2⟩ := w.local_index (onp C) h0 h1' (ent C) hx
    have htt : (P.at' C r).tile = P.row.tile := htl C
    rw [l2, w.lt0_eq, htt, hfirst]
    rw [htt, hfirst] at l1
    have hperm1 : perms.getD ((first : Int) + (x : Int)).toNat 0 = q := by
      rw [show ((first : Int) + (x : Int)).toNat = first + x by omega, List.getD_eq_getElem?_getD, q1]; rfl
    rw [htl C] at hnb
    rw [← hnb, hfirst, hperm1, l1]

theorem countBelow_true (n : Nat) (f : Int → Bool) (h : ∀ i, f i = true) : countBelow n f = n := by
  unfold countBelow
  rw [List.countP_eq_length.2]
  · simp
  · intro a _; exact h a

/-- **Local matrices.**  On a 1 x 1 grid: the rows (columns) of the block are permuted, the rest is unchanged. -/
theorem C36_local (C : Coord) {P : Params2} (hrow : Plain P.row) (hcol : Plain P.col) (hsize : P.row.size = P.col.size)
    (htile : P.row.tile = P.col.tile) (hg1 : P.row.grid = 1) (hg2 : P.col.grid = 1) {ib ie : Int} (h0 : 0 ≤ ib) (h1 : ib ≤ ie)
    (h2 : ie ≤ P.row.dist.nrTiles) {perms : List Nat} (hlen : perms.length = P.row.size)
    {n : Nat} (hn : P.row.dist.global_tile_element_distance ib ie = n)
    (hperm : ∀ x, x < n → ∃ q, perms[(P.row.tileBegin ib).toNat + x]? = some q ∧ q < n)
    {order : List Nat} (horder : order.Perm (List.range n)) {A B0 : Int → Int → K} {tin tout : Coord2 → Coord2 → Blk K}
    (hin : StoresElems P A tin) (hout : StoresElems P B0 tout) :
    ∃ out B, permuteLocal C P ⟨0, 0⟩ ib ie P.row.tile perms order (tin ⟨0, 0⟩) (tout ⟨0, 0⟩) = some out ∧
      Permuted C P ib ie perms A B0 B ∧ StoresAt P B ⟨0, 0⟩ out := by
  have plain : ∀ c, Plain (P.get c) := fun c => by cases c <;> assumption
  have hsz : ∀ c, (P.get c).size = P.row.size := fun c => by cases c; exacts [rfl, hsize.symm]
  have htl : ∀ c, (P.get c).tile = P.row.tile := fun c => by cases c; exacts [rfl, htile.symm]
  have hgr : ∀ c, (P.get c).grid = 1 := fun c => by cases c <;> assumption
  have hr : (⟨0, 0⟩ : Coord2) ∈ P.ranks := by
    rw [Params2.mem_ranks]
    intro c
    rw [hgr c]
    cases c <;> exact ⟨Int.le_refl _, by decide⟩
  have hgc : (⟨0, 0⟩ : Coord2).get C = 0 := by cases C <;> rfl
  have hp : Plain (P.at' C ⟨0, 0⟩) := (plain C).onRank (Params2.mem_ranks.1 hr C).1 (Params2.mem_ranks.1 hr C).2
  have hrank : (P.at' C ⟨0, 0⟩).rank = 0 := hgc
  have hown : ∀ e, (P.at' C ⟨0, 0⟩).owner e = 0 := by
    intro e
    unfold Params.owner
    have : (P.at' C ⟨0, 0⟩).grid = 1 := hgr C
    rw [this]; omega
  have hnt : (P.get C).dist.nrTiles = P.row.dist.nrTiles := by
    rw [(plain C).nrTiles_def, hrow.nrTiles_def, hsz C, htl C]
  have hdC : (P.on ⟨0, 0⟩).get C = (P.at' C ⟨0, 0⟩).dist := by cases C <;> rfl
  -- local and global indices are the same
  have hnext : ∀ t, 0 ≤ t → (P.at' C ⟨0, 0⟩).dist.next_local_tile_from_global_tile t = t := by
    intro t ht
    obtain ⟨k, rfl⟩ := Int.eq_ofNat_of_zero_le ht
    rw [C05_next_local_count hp.valid, countBelow_true]
    intro i
    rw [hown, hrank]; rfl
  have hloc : ∀ e, 0 ≤ e → (P.at' C ⟨0, 0⟩).dist.local_element_from_global_element e = e := by
    intro e he
    rw [hp.valid.localPos_here he (by rw [hown, hrank])]
    unfold Params.localPos
    rw [countBelow_true]
    · omega
    · intro i; simp [hown]
  have hls : (P.at' C ⟨0, 0⟩).dist.localSize = P.row.size := by
    rw [C04_local_size_count hp.valid, countBelow_true _ _ (fun i => by simp [hown, hrank])]
    have h3 : (P.at' C ⟨0, 0⟩).size = P.row.size := hsz C
    rw [h3]
    have := hrow.valid.1
    omega
  have ht : 0 < P.row.tile := hrow.valid.2.2.1
  have hib : 0 ≤ ib * P.row.tile := Int.mul_nonneg h0 (Int.le_of_lt ht)
  have htb : P.row.tileBegin ib = ib * P.row.tile := hrow.tileBegin h0
  have htbC : (P.get C).tileBegin ib = ib * P.row.tile := by rw [(plain C).tileBegin h0, htl C]
  have hrs : (P.at' C ⟨0, 0⟩).rangeSize ib ie = n := by
    have : (P.get C).rangeSize ib ie = n := by
      unfold Params.rangeSize Dist1.global_tile_element_distance at *
      rw [(plain C).begin h0, (plain C).begin (show 0 ≤ ie by omega), hnt, htl C,
        show (P.get C).dist.size = P.row.dist.size from hsz C]
      rw [hrow.begin h0, hrow.begin (show 0 ≤ ie by omega)] at hn
      rw [hn]; rfl
    exact this
  have hln : ((P.on ⟨0, 0⟩).get C).local_element_distance_from_global_tile ib ie = n := by
    rw [hdC]
    obtain ⟨n', nb, lt0, w⟩ := hp.localWin h0 h1 (show ie ≤ (P.get C).dist.nrTiles by rw [hnt]; exact h2)
    rw [w.n_eq]
    by_cases hie : ib = ie
    · subst hie
      have hz : n' = 0 := by
        have := (w.tiles 0).1
        rw [w.lt0_eq] at this
        omega
      have : n = 0 := by
        have h5 := hn
        unfold Dist1.global_tile_element_distance at h5
        rw [hrow.begin h0] at h5
        by_cases hlast : ib = P.row.dist.nrTiles
        · have := mt (hrow.lt_nrTiles h0).2 (by omega)
          have h6 : P.row.dist.size = P.row.size := rfl
          rw [h6] at h5
          simp only [if_pos hlast] at h5
          omega
        · simp only [if_neg hlast] at h5
          omega
      omega
    · have hl := w.own_len hp h0 (by omega) (show ie ≤ (P.get C).dist.nrTiles by rw [hnt]; exact h2)
      rw [hrs, hrank] at hl
      unfold ownList at hl
      rw [List.filter_eq_self.2] at hl
      · rw [List.length_range] at hl
        omega
      · intro s hs
        have := (hp.owner_range h0 (show ib < ie by omega) (show ie ≤ (P.get C).dist.nrTiles by rw [hnt]; exact h2)
          (s := s) (by rw [hrs]; exact List.mem_range.1 hs)).2
        have hgg : (P.at' C ⟨0, 0⟩).grid = 1 := hgr C
        rw [hgg] at this
        simp
        omega
  obtain ⟨out, B, e, ⟨hb1, hb2⟩, hs⟩ := C36_local_part C hrow hcol hsize htile hr h0 h1 h2 (perms := perms)
    (by rw [hdC, hls, hlen]) hln (first := (P.row.tileBegin ib).toNat)
    (by rw [hdC, hnext ib h0, htb]; omega) hperm horder (hin _ hr) (hout _ hr)
  refine ⟨out, B, e, ⟨fun x y x0 x1 y0 hx hy => ?_, hb2⟩, hs⟩
  rw [hb1 x y x0 x1 y0 hx hy (by rw [hgc]; exact hown x), hloc x x0, hnext ib h0, htbC, htl C]
  have hie : ib < ie := by
    have := hx.1; have := hx.2; omega
  have hxs : (x - ib * P.row.tile).toNat < n := by
    rw [← hrs]
    rw [hp.rangeSize_spec h0 hie (show ie ≤ (P.get C).dist.nrTiles by rw [hnt]; exact h2)]
    have hto : (P.get C).tileOf x = x / P.row.tile := by rw [(plain C).tileOf, htl C]
    obtain ⟨t1, t2⟩ := hx
    rw [hto] at t1 t2
    have t3 := (Int.le_ediv_iff_mul_le ht).1 t1
    have t4 := (Int.ediv_lt_iff_lt_mul ht).1 t2
    have htt : (P.at' C ⟨0, 0⟩).tile = P.row.tile := htl C
    have hss : (P.at' C ⟨0, 0⟩).size = (P.get C).size := rfl
    rw [htt, hss]
    omega
  have hx0 : ib * P.row.tile ≤ x := by
    have t1 := hx.1
    rw [(plain C).tileOf, htl C] at t1
    exact (Int.le_ediv_iff_mul_le ht).1 t1
  obtain ⟨q, q1, q2⟩ := hperm _ hxs
  rw [htb, show (ib * P.row.tile).toNat + (x - ib * P.row.tile).toNat = x.toNat by omega] at q1
  rw [List.getD_eq_getElem?_getD, q1, Option.getD_some]
  have hrl := hp.range_le h0 hie (show ie ≤ (P.get C).dist.nrTiles by rw [hnt]; exact h2)
  rw [hrs] at hrl
  have hrb : (P.at' C ⟨0, 0⟩).rangeBegin ib = ib * P.row.tile := by
    have htt : (P.at' C ⟨0, 0⟩).tile = P.row.tile := htl C
    unfold Params.rangeBegin
    rw [hp.begin h0, htt]; omega
  have hss : (P.at' C ⟨0, 0⟩).size = P.row.size := hsz C
  rw [hrb, hss] at hrl
  obtain ⟨g1, _, g2, _⟩ := C03_local_global_local hp.valid (e := ib * P.row.tile + q) (by omega) (by rw [hls]; omega)
  rw [hloc _ g2] at g1
  rw [g1]

/-- The matrix of the finding: 3 x 3 with an element offset of 1 in 2 x 2 tiles. -/
def permP : Params2 := ⟨⟨3, 2, 2, 1, 0, 0, 1⟩, ⟨3, 2, 2, 1, 0, 0, 1⟩⟩

def permTile : Coord2 → Blk Int := fun c => ⟨if c.row = 0 then 1 else 2, if c.col = 0 then 1 else 2, fun _ _ => 0⟩

/-- FINDING: `permute` accepts a matrix whose first tile is not full (element offset), but its indices assume that it is:
with the identity permutation the tasks read outside the first tile. -/
theorem C36_offset_not_rejected :
    permP.Valid ∧ StoresElems permP (fun _ _ => 0) (fun _ => permTile) ∧
    permuteChecks permP 2 3 3 0 2 permP.row.dist.nrTiles = true ∧
    permuteLocal .Col permP ⟨0, 0⟩ 0 2 2 [0, 1, 2] [0, 1, 2] permTile permTile = none := by
  refine ⟨by decide, ?_, by decide, ?_⟩
  · intro r hr li lj hi hj
    have hr' : r = ⟨0, 0⟩ := by
      obtain ⟨⟨a, b⟩, c, d⟩ := Params2.mem_ranks_iff.1 hr
      have e1 : r.row = 0 := by have : r.row < 1 := b; omega
      have e2 : r.col = 0 := by have : r.col < 1 := d; omega
      cases r
      simp_all
    subst hr'
    have l2 : (permP.on ⟨0, 0⟩).row.localNrTiles = 2 := by decide
    have l3 : (permP.on ⟨0, 0⟩).col.localNrTiles = 2 := by decide
    rw [l2] at hi
    rw [l3] at hj
    have h1 : li = 0 ∨ li = 1 := by omega
    have h2 : lj = 0 ∨ lj = 1 := by omega
    rcases h1 with rfl | rfl <;> rcases h2 with rfl | rfl <;> exact ⟨by decide, by decide, fun _ _ _ _ => rfl⟩
  · have : (permuteLocal .Col permP ⟨0, 0⟩ 0 2 2 [0, 1, 2] [0, 1, 2] permTile permTile).isNone = true := by decide
    exact Option.isNone_iff_eq_none.1 this

/-- A 7 x 7 matrix in 2 x 2 tiles on a 2 x 3 grid, the tiles 1, 2, 3 (elements 2 .. 6) and a permutation that is not an
involution meet the hypotheses of `C36_distributed`. -/
example : ∃ (P : Params2) (perms : List Nat), Plain P.row ∧ Plain P.col ∧ P.row.size = P.col.size ∧ P.row.tile = P.col.tile ∧
    (4 : Int) ≤ P.row.dist.nrTiles ∧ (perms.length : Int) = P.row.size ∧
    C34.IsPerm (P.row.dist.global_tile_element_distance 1 4).toNat
      ((perms.drop (P.row.tileBegin 1).toNat).take (P.row.dist.global_tile_element_distance 1 4).toNat) ∧
    (∀ A : Int → Int → Int, ∃ t, StoresElems P A t) ∧
    (∀ C : Coord, ∀ r ∈ P.ranks, 0 < ((P.on r).get C).local_element_distance_from_global_tile 1 4) := by
  refine ⟨⟨⟨7, 2, 2, 2, 0, 0, 0⟩, ⟨7, 2, 2, 3, 0, 1, 0⟩⟩, [9, 9, 3, 0, 4, 1, 2], by decide, by decide, rfl, rfl, by decide, by decide, ?_,
    fun A => storesElems_exists _ (by decide) A, fun C => by cases C <;> decide⟩
  unfold C34.IsPerm
  decide

/-- The same matrix on one process meets the hypotheses of `C36_local` (and of `C36_local_part`). -/
example : ∃ (P : Params2) (perms : List Nat), Plain P.row ∧ Plain P.col ∧ P.row.size = P.col.size ∧ P.row.tile = P.col.tile ∧
    P.row.grid = 1 ∧ P.col.grid = 1 ∧ (4 : Int) ≤ P.row.dist.nrTiles ∧ (perms.length : Int) = P.row.size ∧
    P.row.dist.global_tile_element_distance 1 4 = (5 : Nat) ∧
    (∀ x, x < 5 → ∃ q, perms[(P.row.tileBegin 1).toNat + x]? = some q ∧ q < 5) ∧
    ∀ A : Int → Int → Int, ∃ t, StoresElems P A t := by
  refine ⟨⟨⟨7, 2, 2, 1, 0, 0, 0⟩, ⟨7, 2, 2, 1, 0, 0, 0⟩⟩, [9, 9, 3, 0, 4, 1, 2], by decide, by decide, rfl, rfl, rfl, rfl, by decide,
    by decide, by decide, ?_, fun A => storesElems_exists _ (by decide) A⟩
  intro x hx
  have : x = 0 ∨ x = 1 ∨ x = 2 ∨ x = 3 ∨ x = 4 := by omega
  rcases this with rfl | rfl | rfl | rfl | rfl
  exacts [⟨3, by decide, by decide⟩, ⟨0, by decide, by decide⟩, ⟨4, by decide, by decide⟩, ⟨1, by decide, by decide⟩, ⟨2, by decide, by decide⟩]

end DLAF
