import Verif.Lemmas.DistT2BRun
/- The updates of a block and the whole distributed back-transformation from tridiagonal to band form. -/
namespace DLAF
namespace DistT2B
open scoped Classical

theorem irange_split {X : Type*} {a M : Int} (h0 : 0 ≤ a) (h1 : a ≤ M) (f : Int → List X) :
    (irange 0 a).flatMap f = (irange 0 M).flatMap fun t => if t < a then f t else [] := by
  refine int_range_ind h1 (fun M => (irange 0 a).flatMap f = (irange 0 M).flatMap fun t => if t < a then f t else []) ?_ ?_
  · refine List.flatMap_congr fun t ht => ?_
    rw [if_pos (mem_irange.1 ht).2]
  · intro t h2 _ ih
    rw [irange_succ (by omega), List.flatMap_append, ← ih]
    simp [show ¬ t < a by omega]

theorem bounded {X : Type*} (f : X → Int) : ∀ l : List X, ∃ M, 0 ≤ M ∧ ∀ x ∈ l, f x ≤ M
  | [] => ⟨0, by omega, fun _ h => by simp at h⟩
  | a :: l => by
    obtain ⟨M, h1, h2⟩ := bounded f l
    refine ⟨max M (f a), by omega, fun x hx => ?_⟩
    rcases List.mem_cons.1 hx with rfl | hx
    · omega
    · have := h2 x hx; omega

section
variable {K : Type*} [RCLike K] {P : Params2} {cc : Params} {n mb m nbe b t : Nat} (G : Geo P cc n mb m nbe b t)
variable {cplx : Bool} (hn : (if cplx then 1 else 2) < n) {j st : Nat} (hz : IsBlock cplx n b (j + st, j))
variable {E : Coord2 → T2BEnv K} (hE : ∀ r, (E r).cplx = cplx) (hG : ∀ r, 0 < (E r).group) {V D : Elems K}

/-- During the updates: the local tile columns before `c` are updated. -/
structure Upd (P : Params2) (cc : Params) (n mb m nbe b t : Nat) (cplx : Bool) (j st : Nat) (E : Coord2 → T2BEnv K) (V D : Elems K) (c : Int) (r : Coord2) (s : DT2BSt K) : Prop where
  vw : inv P n b t (j + st) r ∧ nc cc r ≠ 0 → VWSt P cc n b r cplx j st V (E r) s
  hh : WinAt P n mb n mb r V s.hh
  e : ∀ je, 0 ≤ je → je < nc cc r → ColAt P cc n mb m nbe r je (if je < c then blkF cplx n b m V (j + st, j) D else D) s.e

theorem Upd.of_eq {c : Int} {r : Coord2} {s s' : DT2BSt K} (h : Upd P cc n mb m nbe b t cplx j st E V D c r s) (h1 : s'.e = s.e) (h2 : s'.hh = s.hh)
    (h3 : s'.v = s.v) (h4 : s'.w = s.w) : Upd P cc n mb m nbe b t cplx j st E V D c r s' :=
  ⟨fun z q hq => by have := h.vw z q hq; rw [h3, h4]; exact this, by rw [h2]; exact h.hh, fun je z1 z2 => by rw [h1]; exact h.e je z1 z2⟩

theorem Upd.next {c : Int} {r : Coord2} {s : DT2BSt K} (h : Upd P cc n mb m nbe b t cplx j st E V D c r s) {a : Coord2 → Blk K}
    (h1 : ColAt P cc n mb m nbe r c (blkF cplx n b m V (j + st, j) D) a) (h2 : ∀ z : Coord2, z.col ≠ c → a z = s.e z) :
    Upd P cc n mb m nbe b t cplx j st E V D (c + 1) r { s with e := a } := by
  refine ⟨h.vw, h.hh, fun je z1 z2 => ?_⟩
  by_cases hje : je = c
  · subst hje
    rw [if_pos (by omega)]
    exact h1
  · have := h.e je z1 z2
    have e : (je < c + 1) ↔ (je < c) := by omega
    intro i hi hi'
    dsimp only
    rw [h2 _ hje]
    have w := this i hi hi'
    by_cases hlt : je < c
    · rw [if_pos hlt] at w
      rw [if_pos (by omega)]
      exact w
    · rw [if_neg hlt] at w
      rw [if_neg (by omega)]
      exact w

include G hn hz

/-- The rows of the block are on the processes with a part in it. -/
theorem notin_congr {r : Coord2} (hr : r ∈ P.ranks) (hnot : ¬ inv P n b t (j + st) r) {je : Int} (h0 : 0 ≤ je) (h1 : je < nc cc r) {loc : Coord2 → Blk K}
    (h : ColAt P cc n mb m nbe r je D loc) : ColAt P cc n mb m nbe r je (blkF cplx n b m V (j + st, j) D) loc := by
  refine G.ColAt_congr hr h0 h1 h fun x hx ho y _ => ?_
  rw [blkF_row G.hb hn hz]
  dsimp only
  have hB : (j + st + 1) * b = (j + st) * b + b := by rw [Nat.add_mul, Nat.one_mul]
  by_contra hcon
  apply hnot
  unfold inv own
  by_cases hx2 : x < (j + st) * b + b
  · left
    rw [← ho]
    have hf := G.fits (j + st)
    have hs := G.split (j + st)
    have : x / mb = (j + st) / t := by
      rw [Nat.div_eq_iff (G.row.nb_pos)]
      omega
    rw [this]
  · right
    refine ⟨by omega, ?_⟩
    rw [← ho]
    have hf := G.fits (j + st + 1)
    have hs := G.split (j + st + 1)
    have : x / mb = (j + st + 1) / t := by
      rw [Nat.div_eq_iff (G.row.nb_pos)]
      omega
    rw [this]

include hE hG

/-- One local tile column on all processes that have it. -/
theorem update_runs {c : Int} (hc0 : 0 ≤ c) {g : Glob (DT2BSt K) (Blk K)} (hc : Clean P.ranks g)
    (hU : ∀ r ∈ P.ranks, Upd P cc n mb m nbe b t cplx j st E V D c r (g.st r)) :
    ∃ g', Runs (fun r => if r ∈ P.ranks ∧ inv P n b t (j + st) r ∧ c < nc cc r then update n b (P.on r) ((PE P cc).on r) (j + st) j (E r) c else []) g g' ∧
      Clean P.ranks g' ∧ ∀ r ∈ P.ranks, Upd P cc n mb m nbe b t cplx j st E V D (c + 1) r (g'.st r) := by
  have hi := G.lt_i hn hz
  let L := P.ranks.filter fun r => decide (inv P n b t (j + st) r ∧ c < nc cc r)
  have hL : L.Nodup := (Params2.ranks_nodup P).filter _
  have mL : ∀ r, r ∈ L ↔ r ∈ P.ranks ∧ inv P n b t (j + st) r ∧ c < nc cc r := by
    intro r; simp [L]
  have rest : ∀ r ∈ P.ranks, r ∉ L → ∀ s, Upd P cc n mb m nbe b t cplx j st E V D c r s → Upd P cc n mb m nbe b t cplx j st E V D (c + 1) r s := by
    intro r hr hrL s hs
    refine ⟨hs.vw, hs.hh, fun je z1 z2 => ?_⟩
    by_cases hje : je = c
    · subst hje
      have := hs.e je z1 z2
      rw [if_neg (by omega)] at this
      rw [if_pos (by omega)]
      exact notin_congr G hn hz hr (fun z => hrL ((mL r).2 ⟨hr, z, z2⟩)) z1 z2 this
    · have := hs.e je z1 z2
      by_cases hlt : je < c
      · rw [if_pos hlt] at this
        rw [if_pos (by omega)]
        exact this
      · rw [if_neg hlt] at this
        rw [if_neg (by omega)]
        exact this
  have cur : ∀ r ∈ L, VWSt P cc n b r cplx j st V (E r) (g.st r) ∧ ColAt P cc n mb m nbe r c D (g.st r).e := by
    intro r hr
    obtain ⟨m1, m2, m3⟩ := (mL r).1 hr
    refine ⟨(hU r m1).vw ⟨m2, by omega⟩, ?_⟩
    have := (hU r m1).e c hc0 m3
    rw [if_neg (by omega)] at this
    exact this
  by_cases hat : (j + st + 1) * b < n
  · by_cases hne : own P t (j + st) = own P t (j + st + 1)
    · -- two tile rows on the same process row
      obtain ⟨g', r1, c1, s1, s2⟩ := Runs.loc_on hL hc (fun r => updDouble n b (P.on r) ((PE P cc).on r) (j + st) j (E r) c)
        (fun r s => Upd P cc n mb m nbe b t cplx j st E V D (c + 1) r s) (fun r hr => by
          obtain ⟨m1, m2, m3⟩ := (mL r).1 hr
          obtain ⟨u1, u2⟩ := cur r hr
          have ho : own P t (j + st) = r.row := by rcases m2 with z | z; exact z.symm; rw [hne]; exact z.2.symm
          obtain ⟨a, a1, a2, a3⟩ := G.updDouble m1 hn hz m2 (hE r) (hG r) u1 hc0 m3 u2 hat ho (hne ▸ ho)
          exact ⟨_, a1, (hU r m1).next a2 a3⟩)
      refine ⟨g', r1.congr fun r => ?_, c1, fun r hr => ?_⟩
      · by_cases h : r ∈ P.ranks ∧ inv P n b t (j + st) r ∧ c < nc cc r
        · rw [if_pos h, if_pos ((mL r).2 h)]
          unfold update
          rw [if_neg (by rw [(G.acrossTiles hi).2 hat]; simp), if_pos]
          rw [Bool.eq_false_iff]
          exact fun z => ((G.acrossRanks h.1 hi).1 z).2 hne
        · rw [if_neg h, if_neg (fun z => h ((mL r).1 z))]
      · by_cases hrL : r ∈ L
        · exact s1 r hrL
        · rw [s2 r hrL]
          exact rest r hr hrL _ (hU r hr)
    · -- two process rows
      obtain ⟨ga, r1, c1, s1, s2⟩ := Runs.loc_on hL hc (fun r => w2Own n b (P.on r) ((PE P cc).on r) (j + st) j (E r) c)
        (fun r s => (∃ tm, s = { g.st r with tmp := tm }) ∧ ∀ q, slot b (P.on r) (j + st) = some q → TmpAt P cc n m nbe b t r cplx j st V D c (s.tmp q c)) (fun r hr => by
          obtain ⟨m1, m2, m3⟩ := (mL r).1 hr
          obtain ⟨u1, u2⟩ := cur r hr
          obtain ⟨tm, t1, t2⟩ := G.w2Own m1 hn hz m2 (hE r) u1 hc0 m3 u2 hat hne
          exact ⟨_, t1, ⟨tm, rfl⟩, t2⟩)
      let mt : Coord2 → Int := fun r => if r.row = own P t (j + st) then own P t (j + st + 1) else own P t (j + st)
      let ch : Coord2 → Chan := fun r => .duo 1 r.col (min (own P t (j + st)) (own P t (j + st + 1))) (max (own P t (j + st)) (own P t (j + st + 1)))
        (c + (j + st : Nat) * nc cc r)
      have hinv : ∀ r, inv P n b t (j + st) r ↔ (r.row = own P t (j + st) ∨ r.row = own P t (j + st + 1)) := fun r => by
        unfold inv; tauto
      have hmm : ∀ q : Int, (q = min (own P t (j + st)) (own P t (j + st + 1)) ∨ q = max (own P t (j + st)) (own P t (j + st + 1))) ↔
          (q = own P t (j + st) ∨ q = own P t (j + st + 1)) := by intro q; omega
      have hmate : ∀ r ∈ P.ranks, mate b (P.on r) (j + st) = mt r := by
        intro r hr
        unfold mate
        rw [G.isTop hr hn hz, (G.partner hr _ hne).1, G.rankRow hr]
        dsimp only [mt]
        by_cases h : r.row = own P t (j + st)
        · simp [h]
        · simp [h]
      have hmtL : ∀ r ∈ L, (⟨mt r, r.col⟩ : Coord2) ∈ L ∧ ((mt r = own P t (j + st)) ↔ ¬ r.row = own P t (j + st)) := by
        intro r hr
        obtain ⟨m1, m2, m3⟩ := (mL r).1 hr
        have rg := G.own_range (j + st)
        have rg2 := G.own_range (j + st + 1)
        have hm : (mt r = own P t (j + st) ∨ mt r = own P t (j + st + 1)) := by
          dsimp only [mt]; split
          · exact .inr rfl
          · exact .inl rfl
        refine ⟨(mL _).2 ⟨?_, (hinv _).2 hm, m3⟩, ?_⟩
        · rw [Params2.mem_ranks]
          intro x
          cases x
          · rcases hm with e | e
            · show 0 ≤ mt r ∧ mt r < P.row.grid
              rw [e]; exact rg
            · show 0 ≤ mt r ∧ mt r < P.row.grid
              rw [e]; exact rg2
          · exact Params2.mem_ranks.1 m1 .Col
        · dsimp only [mt]
          by_cases h : r.row = own P t (j + st)
          · rw [if_pos h]
            exact ⟨fun z => absurd z.symm hne, fun z => absurd h z⟩
          · rw [if_neg h]
            exact ⟨fun _ => h, fun _ => rfl⟩
      have hprog : ∀ r ∈ L, w2Sum b (P.on r) ((PE P cc).on r) (j + st) c =
          ([.post (ch r) (w2Send b (P.on r) (j + st) c), .take (ch r) .exchange [⟨mt r, r.col⟩] (recvOne (w2Recv b (P.on r) (j + st) c))] : List (Instr (DT2BSt K) (Blk K))) := by
        intro r hr
        obtain ⟨m1, m2, m3⟩ := (mL r).1 hr
        unfold w2Sum
        rw [hmate r m1]
        have e1 : (P.on r).row.rank = r.row := rfl
        have e2 : (P.on r).col.rank = r.col := rfl
        have e3 : ((PE P cc).on r).col.localNrTiles = nc cc r := rfl
        rw [e1, e2, e3]
        have hmin : min r.row (mt r) = min (own P t (j + st)) (own P t (j + st + 1)) ∧ max r.row (mt r) = max (own P t (j + st)) (own P t (j + st + 1)) := by
          dsimp only [mt]
          rcases (hinv r).1 m2 with z | z
          · rw [if_pos z, z]; exact ⟨rfl, rfl⟩
          · rw [if_neg (fun w => hne (w.symm.trans z)), z, min_comm, max_comm]; exact ⟨rfl, rfl⟩
        rw [hmin.1, hmin.2]
      have hv : ∀ r, ∃ v : Blk K, r ∈ L → w2Send b (P.on r) (j + st) c (ga.st r) = some (ga.st r, v) ∧ TmpAt P cc n m nbe b t r cplx j st V D c v := by
        intro r
        by_cases hr : r ∈ L
        · obtain ⟨m1, m2, m3⟩ := (mL r).1 hr
          obtain ⟨q, hq⟩ := G.slot m1 hi m2
          refine ⟨(ga.st r).tmp q c, fun _ => ⟨?_, (s1 r hr).2 q hq⟩⟩
          unfold w2Send
          rw [hq, Option.map_some]
        · exact ⟨⟨0, 0, fun _ _ => 0⟩, fun z => absurd z hr⟩
      choose v hv using hv
      have hrv : ∀ r, ∃ w : Int → Int → Blk K, r ∈ L → w2Recv b (P.on r) (j + st) c (ga.st r) (v ⟨mt r, r.col⟩) = some { ga.st r with w2 := w } ∧
          ∀ q, slot b (P.on r) (j + st) = some q → W2At P cc n m nbe b r cplx j st V D c (w q c) := by
        intro r
        by_cases hr : r ∈ L
        · obtain ⟨m1, m2, m3⟩ := (mL r).1 hr
          obtain ⟨w, w1⟩ := G.w2Recv m1 hn hz m2 (s := ga.st r) (V := V) (D := D) (je := c) hat hne (r' := ⟨mt r, r.col⟩) rfl (hmtL r hr).2
            (hv _ (hmtL r hr).1).2 (s1 r hr).2
          exact ⟨w, fun _ => w1⟩
        · exact ⟨(ga.st r).w2, fun z => absurd z hr⟩
      choose w hw using hrv
      obtain ⟨gb, r2, c2, t1⟩ := collective_phase (Params2.ranks_nodup P) c1
        (p := fun r => if r ∈ L then w2Sum b (P.on r) ((PE P cc).on r) (j + st) c else [])
        (fun r => if r ∈ L then some (ch r) else none) (fun _ => true) (fun r => w2Send b (P.on r) (j + st) c) (fun _ => .exchange)
        (fun r => [⟨mt r, r.col⟩]) (fun r => recvOne (w2Recv b (P.on r) (j + st) c)) ga.st (fun r => { ga.st r with w2 := w r }) v
        (fun r _ => by
          beta_reduce
          by_cases hr : r ∈ L
          · rw [if_pos hr, if_pos hr, hprog r hr]; rfl
          · rw [if_neg hr, if_neg hr])
        (fun r hr => by
          beta_reduce
          rw [if_neg (fun z => hr ((mL r).1 z).1)])
        (fun r _ k hcr => by
          beta_reduce at hcr
          by_cases hr : r ∈ L
          · rw [if_pos hr] at hcr
            obtain rfl := Option.some.inj hcr
            obtain ⟨m1, m2, m3⟩ := (mL r).1 hr
            refine ⟨duo_has.2 ⟨rfl, (hmm _).2 ((hinv r).1 m2)⟩, fun s hs hhs => ?_⟩
            obtain ⟨e1, e2⟩ := duo_has.1 hhs
            have e3 := (hmm _).1 e2
            have e4 : nc cc s = nc cc r := by unfold nc; rw [e1]
            have hsL : s ∈ L := (mL s).2 ⟨hs, (hinv s).2 e3, by rw [e4]; exact m3⟩
            rw [if_pos hsL]
            dsimp only [ch]
            rw [e1, e4]
          · rw [if_neg hr] at hcr
            exact absurd hcr (by simp))
        (fun r _ k hcr => by
          beta_reduce at hcr
          by_cases hr : r ∈ L
          · rw [if_pos rfl]
            exact (hv r hr).1
          · rw [if_neg hr] at hcr
            exact absurd hcr (by simp))
        (fun r _ k hcr s hs => by
          beta_reduce at hcr
          by_cases hr : r ∈ L
          · rw [if_pos hr] at hcr
            obtain rfl := Option.some.inj hcr
            obtain rfl := List.mem_singleton.1 hs
            obtain ⟨m1, m2, _⟩ := (mL _).1 (hmtL r hr).1
            exact ⟨m1, duo_has.2 ⟨rfl, (hmm _).2 ((hinv _).1 m2)⟩, rfl⟩
          · rw [if_neg hr] at hcr
            exact absurd hcr (by simp))
        (fun r hr' k hcr => by
          beta_reduce at hcr
          by_cases hr : r ∈ L
          · exact (hw r hr).1
          · rw [if_neg hr] at hcr
            exact absurd hcr (by simp))
      have st1 : ∀ r ∈ L, gb.st r = { ga.st r with w2 := w r } := by
        intro r hr
        rw [t1 r, if_pos ⟨((mL r).1 hr).1, by rw [if_pos hr]; rfl⟩]
      have st2 : ∀ r, r ∉ L → gb.st r = ga.st r := by
        intro r hr
        rw [t1 r, if_neg]
        rintro ⟨_, z⟩
        rw [if_neg hr] at z
        exact absurd z (by simp)
      have U2 : ∀ r ∈ L, Upd P cc n mb m nbe b t cplx j st E V D c r (gb.st r) := by
        intro r hr
        obtain ⟨tm, e⟩ := (s1 r hr).1
        refine (hU r ((mL r).1 hr).1).of_eq ?_ ?_ ?_ ?_ <;> rw [st1 r hr, e]
      obtain ⟨gc, r3, c3, w1, w2⟩ := Runs.loc_on hL c2 (fun r => updOwn n b (P.on r) ((PE P cc).on r) (j + st) j (E r) c)
        (fun r s => Upd P cc n mb m nbe b t cplx j st E V D (c + 1) r s) (fun r hr => by
          obtain ⟨m1, m2, m3⟩ := (mL r).1 hr
          have u := U2 r hr
          have u2 := u.e c hc0 m3
          rw [if_neg (by omega)] at u2
          obtain ⟨a, a1, a2, a3⟩ := G.updOwn m1 hn hz m2 (hE r) (u.vw ⟨m2, by omega⟩) hc0 m3 u2 hat hne (fun q hq => by
            rw [st1 r hr]
            exact (hw r hr).2 q hq)
          exact ⟨_, a1, u.next a2 a3⟩)
      refine ⟨gc, (DistRed.Runs.if_append (DistRed.Runs.if_append r1 r2) r3).congr fun r => ?_, c3, fun r hr => ?_⟩
      · by_cases h : r ∈ P.ranks ∧ inv P n b t (j + st) r ∧ c < nc cc r
        · rw [if_pos h, if_pos ((mL r).2 h)]
          unfold update
          rw [if_neg (by rw [(G.acrossTiles hi).2 hat]; simp), if_neg]
          rw [(G.acrossRanks h.1 hi).2 ⟨hat, hne⟩]
          simp
        · rw [if_neg h, if_neg (fun z => h ((mL r).1 z))]
      · by_cases hrL : r ∈ L
        · exact w1 r hrL
        · rw [w2 r hrL, st2 r hrL, s2 r hrL]
          exact rest r hr hrL _ (hU r hr)
  · -- one tile row
    obtain ⟨g', r1, c1, s1, s2⟩ := Runs.loc_on hL hc (fun r => updSingle n b (P.on r) ((PE P cc).on r) (j + st) j (E r) c)
      (fun r s => Upd P cc n mb m nbe b t cplx j st E V D (c + 1) r s) (fun r hr => by
        obtain ⟨m1, m2, m3⟩ := (mL r).1 hr
        obtain ⟨u1, u2⟩ := cur r hr
        have ho : own P t (j + st) = r.row := by rcases m2 with z | z; exact z.symm; exact absurd z.1 hat
        obtain ⟨a, a1, a2, a3⟩ := G.updSingle m1 hn hz m2 (hE r) (hG r) u1 hc0 m3 u2 hat ho
        exact ⟨_, a1, (hU r m1).next a2 a3⟩)
    refine ⟨g', r1.congr fun r => ?_, c1, fun r hr => ?_⟩
    · by_cases h : r ∈ P.ranks ∧ inv P n b t (j + st) r ∧ c < nc cc r
      · rw [if_pos h, if_pos ((mL r).2 h)]
        unfold update
        rw [if_pos]
        rw [Bool.eq_false_iff]
        exact fun z => hat ((G.acrossTiles hi).1 z)
      · rw [if_neg h, if_neg (fun z => h ((mL r).1 z))]
    · by_cases hrL : r ∈ L
      · exact s1 r hrL
      · rw [s2 r hrL]
        exact rest r hr hrL _ (hU r hr)

/-- What a process holds between two blocks. -/
structure Inv (P : Params2) (cc : Params) (n mb m nbe : Nat) (V D : Elems K) (r : Coord2) (s : DT2BSt K) : Prop where
  e : WinAt (PE P cc) n mb m nbe r D s.e
  hh : WinAt P n mb n mb r V s.hh

variable (hl : ∀ r, LarftSpec (E r).larft)
include hl

/-- A block. -/
theorem step_runs {g : Glob (DT2BSt K) (Blk K)} (hc : Clean P.ranks g) (hI : ∀ r ∈ P.ranks, Inv P cc n mb m nbe V D r (g.st r)) :
    ∃ g', Runs (fun r => if r ∈ P.ranks then step n b (P.on r) ((PE P cc).on r) (j + st) j (E r) else []) g g' ∧ Clean P.ranks g' ∧
      ∀ r ∈ P.ranks, Inv P cc n mb m nbe V (blkF cplx n b m V (j + st, j) D) r (g'.st r) := by
  have hi := G.lt_i hn hz
  obtain ⟨g1, r1, c1, s1⟩ := rowPhase G hn hz hc (fun r hr => (hI r hr).hh)
  have e1 : ∀ r ∈ P.ranks, (g1.st r).e = (g.st r).e ∧ (g1.st r).hh = (g.st r).hh := by
    intro r hr
    obtain ⟨⟨p, hp⟩, _⟩ := s1 r hr
    rw [hp]
    exact ⟨rfl, rfl⟩
  obtain ⟨g2, r2, c2, s2⟩ := colPhase G hn hz (cc := cc) c1 (fun r hr => by rw [(e1 r hr).2]; exact (hI r hr).hh) (fun r hr => (s1 r hr).2)
  have e2 : ∀ r ∈ P.ranks, (g2.st r).e = (g.st r).e ∧ (g2.st r).hh = (g.st r).hh := by
    intro r hr
    obtain ⟨⟨p, hp⟩, _⟩ := s2 r hr
    rw [hp]
    exact e1 r hr
  let L := P.ranks.filter fun r => decide (inv P n b t (j + st) r ∧ nc cc r ≠ 0)
  have hL : L.Nodup := (Params2.ranks_nodup P).filter _
  have mL : ∀ r, r ∈ L ↔ r ∈ P.ranks ∧ inv P n b t (j + st) r ∧ nc cc r ≠ 0 := by
    intro r; simp [L]
  obtain ⟨g3, r3, c3, s3, u3⟩ := Runs.loc_on hL c2 (fun r => setVW n b (P.on r) ((PE P cc).on r) (j + st) j (E r))
    (fun r s => VWSt P cc n b r cplx j st V (E r) s ∧ s.e = (g.st r).e ∧ s.hh = (g.st r).hh) (fun r hr => by
      obtain ⟨m1, m2⟩ := (mL r).1 hr
      obtain ⟨v, w, v1, v2⟩ := G.setVW m1 hn hz m2.1 (hE r) (hl r) (hG r) (V := V) (s := g2.st r) (by rw [(e2 r m1).2]; exact (hI r m1).hh)
        (fun z => (s2 r m1).2 m2 z)
      exact ⟨_, v1, v2, e2 r m1⟩)
  have e3 : ∀ r ∈ P.ranks, (g3.st r).e = (g.st r).e ∧ (g3.st r).hh = (g.st r).hh := by
    intro r hr
    by_cases h : r ∈ L
    · exact (s3 r h).2
    · rw [u3 r h]; exact e2 r hr
  obtain ⟨M, hM0, hM⟩ := bounded (nc cc) P.ranks
  have ncn : ∀ r ∈ P.ranks, 0 ≤ nc cc r := by
    intro r hr
    have a3 := (G.ecolAx hr).plain
    show 0 ≤ (cc.onRank r.col).dist.localNrTiles
    rw [← a3.nx_all]
    exact a3.nx_nonneg a3.nrTiles_nonneg
  obtain ⟨g4, r4, c4, s4⟩ := Runs.range (p := fun c r => if r ∈ P.ranks ∧ inv P n b t (j + st) r ∧ c < nc cc r then
      update n b (P.on r) ((PE P cc).on r) (j + st) j (E r) c else []) hM0
    (fun c g => Clean P.ranks g ∧ ∀ r ∈ P.ranks, Upd P cc n mb m nbe b t cplx j st E V D c r (g.st r)) (g := g3)
    ⟨c3, fun r hr => ⟨fun z => (s3 r ((mL r).2 ⟨hr, z⟩)).1, by rw [(e3 r hr).2]; exact (hI r hr).hh, fun je z1 z2 => by
      rw [if_neg (by omega), (e3 r hr).1]
      exact fun i i1 i2 => (hI r hr).e i je i1 i2 z1 z2⟩⟩
    (fun c h0 _ g hg => by
      obtain ⟨g', q1, q2, q3⟩ := update_runs G hn hz hE hG h0 hg.1 hg.2
      exact ⟨g', q1, q2, q3⟩)
  refine ⟨g4, (((r1.append r2).append r3).append r4).congr fun r => ?_, c4, fun r hr => ⟨?_, (s4 r hr).hh⟩⟩
  · by_cases hr : r ∈ P.ranks
    · rw [if_pos hr, if_pos hr]
      have hnc : ((PE P cc).on r).col.localNrTiles = nc cc r := rfl
      unfold step
      rw [hnc]
      by_cases hin : inv P n b t (j + st) r
      · rw [if_pos ((G.involved hr hi).2 hin)]
        by_cases h0 : nc cc r = 0
        · rw [if_pos h0, if_neg (fun z => z.2.2 h0), if_neg (fun z => ((mL r).1 z).2.2 h0), List.append_nil, List.append_nil]
          have : (irange 0 M).flatMap (fun c => if r ∈ P.ranks ∧ inv P n b t (j + st) r ∧ c < nc cc r then
              update n b (P.on r) ((PE P cc).on r) (j + st) j (E r) c else []) = [] := by
            rw [List.flatMap_eq_nil_iff]
            intro c hcm
            have := (mem_irange.1 hcm).1
            rw [if_neg (by omega)]
          rw [this, List.append_nil]
        · rw [if_neg h0, if_pos ⟨hr, hin, h0⟩, if_pos ((mL r).2 ⟨hr, hin, h0⟩), irange_split (ncn r hr) (hM r hr), List.append_assoc, List.append_assoc, List.append_assoc]
          congr 3
          refine List.flatMap_congr fun c _ => ?_
          by_cases hlt : c < nc cc r
          · rw [if_pos hlt, if_pos ⟨hr, hin, hlt⟩]
          · rw [if_neg hlt, if_neg (fun z => hlt z.2.2)]
      · have hnin : ¬ involved n b (P.on r) ((PE P cc).on r) (j + st) = true := fun z => hin ((G.involved hr hi).1 z)
        rw [if_neg hnin, if_neg (fun z => hin z.2.1), if_neg (fun z => hin ((mL r).1 z).2.1)]
        have h1 : rowBcast (K := K) n b (P.on r) (j + st) j = [] := by
          unfold rowBcast
          rw [G.rankRow hr, if_neg]
          rintro ⟨_, z⟩
          exact hin (.inl z)
        have : (irange 0 M).flatMap (fun c => if r ∈ P.ranks ∧ inv P n b t (j + st) r ∧ c < nc cc r then
            update n b (P.on r) ((PE P cc).on r) (j + st) j (E r) c else []) = [] := by
          rw [List.flatMap_eq_nil_iff]
          intro c _
          rw [if_neg (fun z => hin z.2.1)]
        rw [h1, this]
        rfl
    · rw [if_neg hr, if_neg hr, if_neg (fun z => hr z.1), if_neg (fun z => hr ((mL r).1 z).1)]
      have : (irange 0 M).flatMap (fun c => if r ∈ P.ranks ∧ inv P n b t (j + st) r ∧ c < nc cc r then
          update n b (P.on r) ((PE P cc).on r) (j + st) j (E r) c else []) = [] := by
        rw [List.flatMap_eq_nil_iff]
        intro c _
        rw [if_neg (fun z => hr z.1)]
      rw [this]
      rfl
  · intro i je i1 i2 z1 z2
    have := (s4 r hr).e je z1 z2
    have hMr := hM r hr
    rw [if_pos (by have : je < nc cc r := z2; omega)] at this
    exact this i i1 i2

end
end DistT2B
end DLAF
