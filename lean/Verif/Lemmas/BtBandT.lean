import Verif.Lemmas.BtBandVW
/- `computeVT` and `computeVW`. -/
namespace DLAF
open scoped Classical
variable {K : Type*} [RCLike K]

/-- Width of group `g`. -/
def grpW (k group g : Nat) : Nat := min group (k - g * group)

theorem grp_lt {k group g : Nat} (hG : 0 < group) (h : g < ceilDivN k group) : g * group < k := by
  unfold ceilDivN at h
  rw [Nat.lt_iff_add_one_le, Nat.le_div_iff_mul_le hG, Nat.add_mul] at h
  omega

theorem grp_le {k group g : Nat} (h : g * group < k) : g * group + grpW k group g ≤ k := by unfold grpW; omega
theorem grp_pos {k group g : Nat} (hG : 0 < group) (h : g * group < k) : 0 < grpW k group g := by unfold grpW; omega

/-- `T` of a group: `I - V T Vᴴ` is the product of its reflectors, on the rows of the group. -/
def GrpT (n b : Nat) (V : Nat → Nat → K) (j st jg jb : Nat) (T : Nat → Nat → K) : Prop :=
  1 - toM (grpRows n b (j + st) jg jb) jb (fun r c => blkV n b V j st ((j + st) * b + 1 + jg + r) (jg + c)) *
      toM jb jb (upperPart T) *
      (toM (grpRows n b (j + st) jg jb) jb (fun r c => blkV n b V j st ((j + st) * b + 1 + jg + r) (jg + c))).conjTranspose =
    reflectorProd (grpRows n b (j + st) jg jb) (fun r c => blkV n b V j st ((j + st) * b + 1 + jg + r) (jg + c))
      (fun c => blkTau b V j st (jg + c)) jb

theorem GrpT.congr {n b : Nat} {V : Nat → Nat → K} {j st jg jb : Nat} {T T' : Nat → Nat → K} (h : GrpT n b V j st jg jb T)
    (e : ∀ c < jb, ∀ r ≤ c, T' r c = T r c) : GrpT n b V j st jg jb T' := by
  unfold GrpT at h ⊢
  rw [← h]
  have : toM jb jb (upperPart T') = toM jb jb (upperPart T) := by
    ext r c
    simp only [toM, upperPart]
    by_cases hrc : (r : Nat) ≤ c
    · rw [if_pos hrc, if_pos hrc, e c c.2 r hrc]
    · rw [if_neg hrc, if_neg hrc]
  rw [this]

theorem larft_grp {E : T2BEnv K} (hl : LarftSpec E.larft) {n b j st k jg jb : Nat} (ok : BlkOK n b (j + st) j k) (hg : jg + jb ≤ k)
    (hjb : 0 < jb) (V : Nat → Nat → K) {sv shh t : Blk K}
    (hv : IsWin sv (blkV n b V j st) ((j + st) * b + 1 + jg) jg (grpRows n b (j + st) jg jb) jb)
    (hh : IsWin shh V ((j + st) * b) (j * b + jg) 1 jb) (ht : t.rows = jb ∧ t.cols = jb) :
    ∃ t', larftTile E shh sv t = some t' ∧ t'.rows = jb ∧ t'.cols = jb ∧ GrpT n b V j st jg jb t'.e := by
  obtain ⟨hb, hj, hk1, hkb, hkn, hk2⟩ := id ok
  have hr : jb ≤ grpRows n b (j + st) jg jb := by
    unfold grpRows
    generalize (j + st) * b = ib at *
    omega
  unfold larftTile
  rw [if_pos (by rw [hh.1, hh.2.1, hv.1, hv.2.1, ht.1, ht.2]; omega)]
  refine ⟨_, rfl, ht.1, ht.2, ?_⟩
  have h1 := hl sv.rows sv.cols sv.e (fun i => shh.e 0 i) (by rw [hv.2.1]; exact hjb) (by rw [hv.1, hv.2.1]; exact hr)
  rw [hv.1, hv.2.1] at h1
  have e1 : toM (grpRows n b (j + st) jg jb) jb (unitLow sv.e) =
      toM (grpRows n b (j + st) jg jb) jb (fun r c => blkV n b V j st ((j + st) * b + 1 + jg + r) (jg + c)) := by
    ext r c
    show unitLow sv.e r c = blkV n b V j st ((j + st) * b + 1 + jg + r) (jg + c)
    rw [← grp_unit ok hg V c.2]
    unfold unitLow
    by_cases h2 : (r : Nat) < c
    · rw [if_pos h2, if_pos h2]
    rw [if_neg h2, if_neg h2]
    by_cases h3 : (r : Nat) = c
    · rw [if_pos h3, if_pos h3]
    · rw [if_neg h3, if_neg h3, hv.2.2 r r.2 c c.2]
  rw [e1] at h1
  refine GrpT.congr (T := E.larft (grpRows n b (j + st) jg jb) jb sv.e fun i => shh.e 0 i) ?_ ?_
  · unfold GrpT
    rw [h1]
    refine reflectorProd_congr fun c hc => ⟨fun r hr' => ?_, ?_⟩
    · exact congrFun (congrFun e1 ⟨r, hr'⟩) ⟨c, hc⟩
    · rw [hh.2.2 0 (by omega) c hc]
      unfold blkTau
      rw [Nat.add_zero, Nat.add_assoc]
  · intro c hc r hrc
    simp only [hv.1, hv.2.1]
    rw [if_pos ⟨hrc, hc⟩]

theorem computeVT_spec {E : T2BEnv K} (hl : LarftSpec E.larft) (hG : 0 < E.group) {n b j st k : Nat} (ok : BlkOK n b (j + st) j k)
    (V : Nat → Nat → K) {v t : Blk K} (hv : v.rows = min (2 * b) (n - (j + st) * b) - 1 ∧ v.cols = k) (ht : t.rows = k ∧ t.cols = k) :
    ∃ v' t', computeVT E b (getB V ((j + st) * b) (j * b) (min b (n - (j + st) * b)) (min b (n - j * b))) v t = some (v', t') ∧
      IsWin v' (blkV n b V j st) ((j + st) * b + 1) 0 (min (2 * b) (n - (j + st) * b) - 1) k ∧ t'.rows = k ∧ t'.cols = k ∧
      ∀ g < ceilDivN k E.group, GrpT n b V j st (g * E.group) (grpW k E.group g) fun r c => t'.e (g * E.group + r) (g * E.group + c) := by
  obtain ⟨v', h1, h2⟩ := setupV_spec ok V hv
  obtain ⟨hb, hj, hk1, hkb, hkn, hk2⟩ := id ok
  have hjb : j * b ≤ (j + st) * b := Nat.mul_le_mul_right b hj
  unfold computeVT
  simp only [Option.bind_eq_bind]
  rw [h1, Option.bind_some]
  unfold groupStarts
  rw [forM'_map, h2.1, h2.2.1]
  obtain ⟨t', h3, h4, h5, h6⟩ := forM'_inv (n := ceilDivN k E.group) (s := t)
    (b := fun (t : Blk K) (g : Nat) => (subTileO t (g * E.group) (g * E.group) (min E.group (k - g * E.group)) (min E.group (k - g * E.group))).bind fun st' =>
      (subTileO (getB V ((j + st) * b) (j * b) (min b (n - (j + st) * b)) (min b (n - j * b))) 0 (g * E.group) 1
        (min E.group (k - g * E.group))).bind fun shh =>
      (subTileO v' (g * E.group) (g * E.group) (min (min E.group (k - g * E.group) + b - 1)
        (min (2 * b) (n - (j + st) * b) - 1 - g * E.group)) (min E.group (k - g * E.group))).bind fun sv =>
      (larftTile E shh sv st').bind fun r => some (putTile t (g * E.group) (g * E.group) r))
    (fun g t => t.rows = k ∧ t.cols = k ∧ ∀ g' < g, GrpT n b V j st (g' * E.group) (grpW k E.group g') fun r c =>
      t.e (g' * E.group + r) (g' * E.group + c)) (by
    rintro g hg s ⟨hs1, hs2, hs3⟩
    have hlt := grp_lt hG hg
    have hle := grp_le (group := E.group) hlt
    have hpos := grp_pos hG hlt
    have hsw : IsWin s s.e 0 0 k k := ⟨hs1, hs2, fun r _ c _ => by rw [Nat.zero_add, Nat.zero_add]⟩
    obtain ⟨s1, e1, e2⟩ := sub_win hsw (r := g * E.group) (c := g * E.group) (rows := grpW k E.group g) (cols := grpW k E.group g) hle hle
    obtain ⟨s2, e3, e4⟩ := sub_win (getB_win V ((j + st) * b) (j * b) (min b (n - (j + st) * b)) (min b (n - j * b)))
      (r := 0) (c := g * E.group) (rows := 1) (cols := grpW k E.group g) (by omega) (by omega)
    obtain ⟨s3, e5, e6⟩ := sub_win h2 (r := g * E.group) (c := g * E.group) (rows := grpRows n b (j + st) (g * E.group) (grpW k E.group g))
      (cols := grpW k E.group g) (by unfold grpRows; generalize (j + st) * b = ib at *; omega) hle
    rw [Nat.zero_add] at e6
    rw [Nat.add_zero] at e4
    obtain ⟨s4, e7, e8, e9, e10⟩ := larft_grp hl ok hle hpos V e6 e4 (t := s1) ⟨e2.1, e2.2.1⟩
    refine ⟨putTile s (g * E.group) (g * E.group) s4, ?_, hs1, hs2, ?_⟩
    · unfold grpW grpRows at e5
      unfold grpW at e1 e3
      rw [e1, Option.bind_some, e3, Option.bind_some, e5, Option.bind_some, e7, Option.bind_some]
    · intro g' hg'
      rcases Nat.lt_succ_iff_lt_or_eq.1 hg' with hg'' | rfl
      · refine (hs3 g' hg'').congr fun c hc r hrc => ?_
        unfold putTile
        simp only
        have : g' * E.group + E.group ≤ g * E.group := by
          have := Nat.mul_le_mul_right E.group (show g' + 1 ≤ g by omega)
          rwa [Nat.add_mul, Nat.one_mul] at this
        unfold grpW at hc
        rw [if_neg (by omega)]
      · refine e10.congr fun c hc r hrc => ?_
        unfold putTile
        simp only
        rw [e8, e9, if_pos (by omega), Nat.add_sub_cancel_left, Nat.add_sub_cancel_left]) ⟨ht.1, ht.2, fun g hg => absurd hg (by omega)⟩
  refine ⟨v', t', ?_, h2, h4, h5, h6⟩
  rw [h3]
  rfl

/-- `W` of the group: `V T`. -/
noncomputable def grpWM (n b : Nat) (V : Nat → Nat → K) (j st jg jb : Nat) (T : Nat → Nat → K) : Nat → Nat → K := fun x c =>
  ∑ l ∈ Finset.range jb, blkV n b V j st x (jg + l) * upperPart T l c

theorem trmm3_upper_win {v t w : Blk K} {M : Elems K} {r0 c0 rows k : Nat} (hv : IsWin v M r0 c0 rows k) (ht : t.rows = k ∧ t.cols = k)
    (hw : w.rows = rows ∧ w.cols = k) :
    ∃ d, trmm3 .Right .Upper .NoTrans .NonUnit 1 t v w = some d ∧ d.rows = rows ∧ d.cols = k ∧
      ∀ r < rows, ∀ c < k, d.e r c = ∑ l ∈ Finset.range k, M (r0 + r) (c0 + l) * upperPart t.e l c := by
  unfold trmm3
  rw [if_pos ⟨hv.1.trans hw.1.symm, hv.2.1.trans hw.2.symm⟩]
  unfold trmm
  rw [if_pos (by simp [triSizes, hv.2.1, ht.1, ht.2])]
  refine ⟨_, rfl, hv.1, hv.2.1, ?_⟩
  intro r hr c hc
  simp only [one_mul, Blk.mul, hv.2.1]
  refine Finset.sum_congr rfl fun l hl => ?_
  rw [Finset.mem_range] at hl
  rw [hv.2.2 r hr l hl]
  congr 1
  simp only [Blk.op, Blk.tri, upperPart]
  by_cases h1 : l = c
  · simp [h1]
  · rw [if_neg h1]
    by_cases h2 : l < c
    · simp [h2, Nat.le_of_lt h2]
    · rw [if_neg (by simpa using h2), if_neg (by omega)]

/-- `computeVW`: the tile `V` holds the vectors, and the tile `W` the products `V T` of the groups. -/
theorem computeVW_spec {E : T2BEnv K} (hl : LarftSpec E.larft) (hG : 0 < E.group) {n b j st k : Nat} (ok : BlkOK n b (j + st) j k)
    (V : Nat → Nat → K) {v t w : Blk K} (hv : v.rows = min (2 * b) (n - (j + st) * b) - 1 ∧ v.cols = k)
    (ht : t.rows = k ∧ t.cols = k) (hw : w.rows = min (2 * b) (n - (j + st) * b) - 1 ∧ w.cols = k) :
    ∃ v' w', ∃ T : Nat → Nat → Nat → K,
      computeVW E b (getB V ((j + st) * b) (j * b) (min b (n - (j + st) * b)) (min b (n - j * b))) v t w = some (v', w') ∧
      IsWin v' (blkV n b V j st) ((j + st) * b + 1) 0 (min (2 * b) (n - (j + st) * b) - 1) k ∧
      w'.rows = min (2 * b) (n - (j + st) * b) - 1 ∧ w'.cols = k ∧
      ∀ g < ceilDivN k E.group, GrpT n b V j st (g * E.group) (grpW k E.group g) (T g) ∧
        ∀ r < grpRows n b (j + st) (g * E.group) (grpW k E.group g), ∀ c < grpW k E.group g,
          w'.e (g * E.group + r) (g * E.group + c) =
            grpWM n b V j st (g * E.group) (grpW k E.group g) (T g) ((j + st) * b + 1 + g * E.group + r) c := by
  obtain ⟨v', t', h1, h2, h3, h4, h5⟩ := computeVT_spec hl hG ok V hv ht
  obtain ⟨hb, hj, hk1, hkb, hkn, hk2⟩ := id ok
  unfold computeVW
  simp only [Option.bind_eq_bind]
  rw [h1, Option.bind_some]
  unfold groupStarts
  dsimp only
  rw [forM'_map, h2.1, h2.2.1]
  obtain ⟨w', h6, h7, h8, h9⟩ := forM'_inv (n := ceilDivN k E.group) (s := w)
    (b := fun (w : Blk K) (g : Nat) => (subTileO t' (g * E.group) (g * E.group) (min E.group (k - g * E.group)) (min E.group (k - g * E.group))).bind fun st' =>
      (subTileO v' (g * E.group) (g * E.group) (min (min E.group (k - g * E.group) + b - 1)
        (min (2 * b) (n - (j + st) * b) - 1 - g * E.group)) (min E.group (k - g * E.group))).bind fun sv =>
      (subTileO w (g * E.group) (g * E.group) (min (min E.group (k - g * E.group) + b - 1)
        (min (2 * b) (n - (j + st) * b) - 1 - g * E.group)) (min E.group (k - g * E.group))).bind fun sw =>
      (trmm3 .Right .Upper .NoTrans .NonUnit 1 st' sv sw).bind fun r => some (putTile w (g * E.group) (g * E.group) r))
    (fun g w => w.rows = min (2 * b) (n - (j + st) * b) - 1 ∧ w.cols = k ∧ ∀ g' < g,
      ∀ r < grpRows n b (j + st) (g' * E.group) (grpW k E.group g'), ∀ c < grpW k E.group g',
        w.e (g' * E.group + r) (g' * E.group + c) =
            grpWM n b V j st (g' * E.group) (grpW k E.group g') (fun r c => t'.e (g' * E.group + r) (g' * E.group + c))
              ((j + st) * b + 1 + g' * E.group + r) c) (by
    rintro g hg s ⟨hs1, hs2, hs3⟩
    have hlt := grp_lt hG hg
    have hle := grp_le (group := E.group) hlt
    have hpos := grp_pos hG hlt
    have hrle : g * E.group + grpRows n b (j + st) (g * E.group) (grpW k E.group g) ≤ min (2 * b) (n - (j + st) * b) - 1 := by
      unfold grpRows; generalize (j + st) * b = ib at *; omega
    have htw : IsWin t' t'.e 0 0 k k := ⟨h3, h4, fun r _ c _ => by rw [Nat.zero_add, Nat.zero_add]⟩
    have hsw : IsWin s s.e 0 0 (min (2 * b) (n - (j + st) * b) - 1) k := ⟨hs1, hs2, fun r _ c _ => by rw [Nat.zero_add, Nat.zero_add]⟩
    obtain ⟨s1, e1, e2⟩ := sub_win htw (r := g * E.group) (c := g * E.group) (rows := grpW k E.group g) (cols := grpW k E.group g) hle hle
    obtain ⟨s2, e3, e4⟩ := sub_win h2 (r := g * E.group) (c := g * E.group) (rows := grpRows n b (j + st) (g * E.group) (grpW k E.group g))
      (cols := grpW k E.group g) hrle hle
    obtain ⟨s3, e5, e6⟩ := sub_win hsw (r := g * E.group) (c := g * E.group) (rows := grpRows n b (j + st) (g * E.group) (grpW k E.group g))
      (cols := grpW k E.group g) hrle hle
    rw [Nat.zero_add] at e4
    obtain ⟨s4, e7, e8, e9, e10⟩ := trmm3_upper_win e4 (t := s1) ⟨e2.1, e2.2.1⟩ (w := s3) ⟨e6.1, e6.2.1⟩
    refine ⟨putTile s (g * E.group) (g * E.group) s4, ?_, hs1, hs2, ?_⟩
    · unfold grpW grpRows at e3 e5
      unfold grpW at e1
      rw [e1, Option.bind_some, e3, Option.bind_some, e5, Option.bind_some, e7, Option.bind_some]
    · intro g' hg' r hr c hc
      rcases Nat.lt_succ_iff_lt_or_eq.1 hg' with hg'' | rfl
      · rw [← hs3 g' hg'' r hr c hc]
        unfold putTile
        simp only
        have : g' * E.group + E.group ≤ g * E.group := by
          have := Nat.mul_le_mul_right E.group (show g' + 1 ≤ g by omega)
          rwa [Nat.add_mul, Nat.one_mul] at this
        unfold grpW at hc
        rw [if_neg (by omega)]
      · unfold putTile
        simp only
        rw [e8, e9, if_pos (by omega), Nat.add_sub_cancel_left, Nat.add_sub_cancel_left, e10 r hr c hc]
        unfold grpWM
        refine Finset.sum_congr rfl fun l hl => ?_
        rw [Finset.mem_range] at hl
        congr 1
        unfold upperPart
        by_cases hlc : l ≤ c
        · rw [if_pos hlc, if_pos hlc, e2.2.2 l hl c hc, Nat.zero_add]
        · rw [if_neg hlc, if_neg hlc]) ⟨hw.1, hw.2, fun g hg => absurd hg (by omega)⟩
  refine ⟨v', w', fun g r c => t'.e (g * E.group + r) (g * E.group + c), ?_, h2, h7, h8, fun g hg => ⟨h5 g hg, h9 g hg⟩⟩
  rw [h6]
  rfl

end DLAF
