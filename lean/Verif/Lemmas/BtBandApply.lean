import Verif.Lemmas.BtBandT
/- Application of the groups of a block of reflectors to the tiles of `E`. -/
namespace DLAF
open scoped Classical
variable {K : Type*} [RCLike K]

/-- What a group does, by elements. -/
noncomputable def grpF (n b : Nat) (V : Nat → Nat → K) (j st jg jb : Nat) (T : Nat → Nat → K) (D : Elems K) : Elems K := fun x y =>
  if (j + st) * b + 1 + jg ≤ x ∧ x < (j + st) * b + 1 + jg + grpRows n b (j + st) jg jb then
    D x y - ∑ c ∈ Finset.range jb, grpWM n b V j st jg jb T x c *
      ∑ z ∈ Finset.Ico ((j + st) * b + 1 + jg) ((j + st) * b + 1 + jg + grpRows n b (j + st) jg jb),
        star (blkV n b V j st z (jg + c)) * D z y
  else D x y

theorem grpF_mat {n b j st k jg jb m : Nat} (ok : BlkOK n b (j + st) j k) (hg : jg + jb ≤ k) {V T : Nat → Nat → K}
    (hT : GrpT n b V j st jg jb T) (D : Elems K) :
    toM n m (grpF n b V j st jg jb T D) =
      reflectorProd n (fun x c => blkV n b V j st x (jg + c)) (fun c => blkTau b V j st (jg + c)) jb * toM n m D := by
  obtain ⟨hb, hj, hk1, hkb, hkn, hk2⟩ := id ok
  refine win_prod (a := (j + st) * b + 1 + jg) (n' := grpRows n b (j + st) jg jb)
    (W := fun r c => blkV n b V j st ((j + st) * b + 1 + jg + r) (jg + c)) ?_ _ jb ?_ (fun _ _ _ _ => rfl) D _ ?_ ?_
  · unfold grpRows
    generalize (j + st) * b = ib at *
    omega
  · intro c hc x hx hxa
    exact grp_support ok hg V hx hc hxa
  · rw [← hT, Matrix.sub_mul, Matrix.one_mul]
    ext r y
    rw [Matrix.sub_apply]
    simp only [toM]
    unfold grpF
    rw [if_pos ⟨by omega, by have := r.2; omega⟩]
    congr 1
    rw [Matrix.mul_assoc, Matrix.mul_apply]
    rw [Finset.sum_range]
    refine Finset.sum_congr rfl fun c _ => ?_
    rw [Matrix.mul_apply, Matrix.mul_apply]
    unfold grpWM
    rw [Finset.sum_range]
    congr 1
    rw [Finset.sum_Ico_eq_sum_range, Nat.add_sub_cancel_left, Finset.sum_range]
    rfl
  · intro x _ y _ hxa
    unfold grpF
    rw [if_neg hxa]

theorem grpF_col {n b j st jg jb : Nat} {V T : Nat → Nat → K} {D D' : Elems K} {y y' : Nat} (h : ∀ x, D x y = D' x y') (x : Nat) :
    grpF n b V j st jg jb T D x y = grpF n b V j st jg jb T D' x y' := by
  unfold grpF
  simp only [h]

theorem grpF_out {n b j st k jg jb : Nat} (ok : BlkOK n b (j + st) j k) (hg : jg + jb ≤ k) {V T : Nat → Nat → K} {D : Elems K} {x y : Nat}
    (h : n ≤ x) : grpF n b V j st jg jb T D x y = D x y := by
  obtain ⟨hb, hj, hk1, hkb, hkn, hk2⟩ := id ok
  unfold grpF
  rw [if_neg]
  unfold grpRows
  generalize (j + st) * b = ib at *
  omega

/-- A loop that follows a function. -/
theorem forM'_fold {S X D : Type*} {body : S → X → Option S} {f : D → X → D} {R : D → S → Prop} : ∀ (l : List X),
    (∀ x ∈ l, ∀ d s, R d s → ∃ s', body s x = some s' ∧ R (f d x) s') → ∀ d s, R d s →
    ∃ s', forM' l s body = some s' ∧ R (l.foldl f d) s'
  | [], _, d, s, h => ⟨s, rfl, h⟩
  | x :: l, hb, d, s, h => by
    obtain ⟨s1, h1, h2⟩ := hb x List.mem_cons_self d s h
    obtain ⟨s2, h3, h4⟩ := forM'_fold l (fun x hx => hb x (List.mem_cons_of_mem _ hx)) _ _ h2
    exact ⟨s2, by rw [forM'_cons, h1, Option.bind_some, h3], h4⟩

/-- The groups from the last to the first. -/
noncomputable def grpsF (n b : Nat) (V : Nat → Nat → K) (j st k group : Nat) (T : Nat → Nat → Nat → K) (D : Elems K) : Elems K :=
  (upto 0 (ceilDivN k group)).reverse.foldl (fun D g => grpF n b V j st (g * group) (grpW k group g) (T g) D) D

theorem foldl_mat {n m : Nat} {X : Type*} {f : Elems K → X → Elems K} {P : X → Matrix (Fin n) (Fin n) K} : ∀ (l : List X),
    (∀ x ∈ l, ∀ D, toM n m (f D x) = P x * toM n m D) → ∀ D, toM n m (l.foldl f D) = (l.reverse.map P).prod * toM n m D
  | [], _, D => by simp
  | x :: l, h, D => by
    rw [List.foldl_cons, foldl_mat l (fun y hy => h y (List.mem_cons_of_mem _ hy)), h x List.mem_cons_self, List.reverse_cons,
      List.map_append, List.prod_append]
    simp [Matrix.mul_assoc]

theorem grpsF_mat {n b j st k group m : Nat} (hG : 0 < group) (ok : BlkOK n b (j + st) j k) {V : Nat → Nat → K} {T : Nat → Nat → Nat → K}
    (hT : ∀ g < ceilDivN k group, GrpT n b V j st (g * group) (grpW k group g) (T g)) (D : Elems K) :
    toM n m (grpsF n b V j st k group T D) = reflectorProd n (blkV n b V j st) (blkTau b V j st) k * toM n m D := by
  unfold grpsF
  rw [foldl_mat (P := fun g => reflectorProd n (fun x c => blkV n b V j st x (g * group + c)) (fun c => blkTau b V j st (g * group + c))
    (grpW k group g))]
  · congr 1
    rw [List.reverse_reverse]
    have h1 : reflectorProd n (blkV n b V j st) (blkTau b V j st) k =
        ascP (ceilDivN k group * group) (fun c => if c < k then reflector n (fun x => blkV n b V j st x c) (blkTau b V j st c) else 1) := by
      rw [ascP_one (k := k) (le_ceilDivN_mul k hG) fun i h _ => if_neg (by omega)]
      unfold reflectorProd
      exact ascP_congr fun i hi => (if_pos hi).symm
    rw [h1, ← ascP_mul]
    unfold upto
    rw [Nat.sub_zero, ← List.range_eq_range']
    refine ascP_congr fun g hg => ?_
    have hlt := grp_lt hG hg
    rw [ascP_one (k := grpW k group g) (by unfold grpW; omega) fun i h h' => if_neg (by unfold grpW at h; omega)]
    unfold reflectorProd
    exact ascP_congr fun i hi => (if_pos (by unfold grpW at hi; omega)).symm
  · intro g hg D
    rw [List.mem_reverse, mem_upto] at hg
    exact grpF_mat ok (grp_le (grp_lt hG hg.2)) (hT g hg.2) D

theorem grpsF_col {n b j st k group : Nat} {V : Nat → Nat → K} {T : Nat → Nat → Nat → K} {D D' : Elems K} {y y' : Nat}
    (h : ∀ x, D x y = D' x y') (x : Nat) : grpsF n b V j st k group T D x y = grpsF n b V j st k group T D' x y' := by
  unfold grpsF
  generalize (upto 0 (ceilDivN k group)).reverse = l
  induction l generalizing D D' x with
  | nil => exact h x
  | cons g l ih =>
    rw [List.foldl_cons, List.foldl_cons]
    exact ih (fun x => grpF_col h x) x

theorem grpsF_rows {n b j st k group : Nat} (hG : 0 < group) (ok : BlkOK n b (j + st) j k) {V : Nat → Nat → K} {T : Nat → Nat → Nat → K}
    {D : Elems K} {x y : Nat} (h : x < (j + st) * b ∨ min n ((j + st) * b + 2 * b) ≤ x) : grpsF n b V j st k group T D x y = D x y := by
  obtain ⟨hb, hj, hk1, hkb, hkn, hk2⟩ := id ok
  unfold grpsF
  have : ∀ l : List Nat, (∀ g ∈ l, g < ceilDivN k group) → ∀ D : Elems K,
      l.foldl (fun D g => grpF n b V j st (g * group) (grpW k group g) (T g) D) D x y = D x y := by
    intro l
    induction l with
    | nil => intro _ D; rfl
    | cons g l ih =>
      intro hl D
      rw [List.foldl_cons, ih fun g hg => hl g (List.mem_cons_of_mem _ hg)]
      have hle := grp_le (grp_lt hG (hl g List.mem_cons_self))
      unfold grpF
      rw [if_neg]
      unfold grpRows
      generalize (j + st) * b = ib at *
      omega
  exact this _ (fun g hg => by rw [List.mem_reverse, mem_upto] at hg; exact hg.2) D

/-- `ApplyHHToSingleTileRow` on a tile of the last row of tiles. -/
theorem applySingle_spec {E : T2BEnv K} (hG : 0 < E.group) {n b j st k q0 qw : Nat} (ok : BlkOK n b (j + st) j k)
    (hlast : n ≤ (j + st) * b + b) {V : Nat → Nat → K} {T : Nat → Nat → Nat → K} {v w w2 e : Blk K} {D : Elems K}
    (hv : IsWin v (blkV n b V j st) ((j + st) * b + 1) 0 (min (2 * b) (n - (j + st) * b) - 1) k)
    (hw : w.rows = min (2 * b) (n - (j + st) * b) - 1 ∧ w.cols = k)
    (hwe : ∀ g < ceilDivN k E.group, ∀ r < grpRows n b (j + st) (g * E.group) (grpW k E.group g), ∀ c < grpW k E.group g,
          w.e (g * E.group + r) (g * E.group + c) =
            grpWM n b V j st (g * E.group) (grpW k E.group g) (T g) ((j + st) * b + 1 + g * E.group + r) c)
    (hw2 : w2.rows = k ∧ w2.cols = qw) (he : IsWin e D ((j + st) * b) q0 (min b (n - (j + st) * b)) qw) :
    ∃ e', applySingle E v w w2 e = some e' ∧
      IsWin e' (grpsF n b V j st k E.group T D) ((j + st) * b) q0 (min b (n - (j + st) * b)) qw := by
  obtain ⟨hb, hj, hk1, hkb, hkn, hk2⟩ := id ok
  unfold applySingle groupStarts
  rw [← List.map_reverse, forM'_map, hv.1, hv.2.1]
  refine forM'_fold (R := fun D (e : Blk K) => IsWin e D ((j + st) * b) q0 (min b (n - (j + st) * b)) qw) _ ?_ D e he
  intro g hg D s hs
  rw [List.mem_reverse, mem_upto] at hg
  have hlt := grp_lt hG hg.2
  have hle := grp_le (group := E.group) hlt
  have hpos := grp_pos hG hlt
  have hrows : grpRows n b (j + st) (g * E.group) (grpW k E.group g) = min (2 * b) (n - (j + st) * b) - 1 - g * E.group := by
    unfold grpRows; generalize (j + st) * b = ib at *; omega
  have hwg := hwe g hg.2
  rw [hrows] at hwg
  have hww : IsWin w w.e 0 0 (min (2 * b) (n - (j + st) * b) - 1) k := ⟨hw.1, hw.2, fun r _ c _ => by rw [Nat.zero_add, Nat.zero_add]⟩
  have hw2w : IsWin w2 (fun l y => w2.e l (y - q0)) 0 q0 k qw :=
    ⟨hw2.1, hw2.2, fun r _ c _ => by beta_reduce; rw [Nat.zero_add, Nat.add_sub_cancel_left]⟩
  have hR : (j + st) * b + (g * E.group + 1) = (j + st) * b + 1 + g * E.group := by omega
  generalize hjg : g * E.group = jg at *
  generalize hjb : grpW k E.group g = jb at *
  have hjb' : min E.group (k - jg) = jb := by rw [← hjb, ← hjg]; rfl
  generalize hib : (j + st) * b = ib at *
  have htop : min b (n - ib) = n - ib := by omega
  have hrv : min (2 * b) (n - ib) - 1 = n - ib - 1 := by omega
  rw [htop] at hs ⊢
  rw [hrv] at hv hww hwg hrows ⊢
  obtain ⟨s1, e1, e2⟩ := sub_win hv (r := jg) (c := jg) (rows := n - ib - 1 - jg) (cols := jb) (by omega) (by omega)
  obtain ⟨s2, e3, e4⟩ := sub_win hww (r := jg) (c := jg) (rows := n - ib - 1 - jg) (cols := jb) (by omega) (by omega)
  obtain ⟨s3, e5, e6⟩ := sub_win hw2w (r := 0) (c := 0) (rows := jb) (cols := qw) (by omega) (by omega)
  obtain ⟨s4, e7, e8⟩ := sub_win hs (r := jg + 1) (c := 0) (rows := n - ib - (jg + 1)) (cols := qw) (by omega) (by omega)
  rw [show n - ib - (jg + 1) = n - ib - 1 - jg by omega] at e7 e8
  rw [hR] at e8
  rw [Nat.zero_add] at e2 e4 e6
  simp only [Nat.add_zero] at e6 e8
  have e2c := (conj_win e2).shift 0 (ib + 1 + jg)
  obtain ⟨d1, f1, f2⟩ := gemm_win .ConjTrans .NoTrans 1 0 e2c (b := s4) e8 e6
  have hs2 : IsWin s2 (grpWM n b V j st jg jb (T g)) (ib + 1 + jg) 0 (n - ib - 1 - jg) jb := by
    refine ⟨e4.1, e4.2.1, fun r hr c hc => ?_⟩
    rw [e4.2.2 r hr c hc, Nat.zero_add, hwg r hr c hc]
  obtain ⟨d2, f3, f4⟩ := gemm_win .NoTrans .NoTrans (-1) 1 (a := s2) hs2 (b := d1) f2 e8
  have f5 := putTile_win hs (r := jg + 1) (c := 0) (s := d2) (rows := n - ib - 1 - jg) (cols := qw) (by rw [hR, Nat.add_zero]; exact f4)
  refine ⟨putTile s (jg + 1) 0 d2, ?_, f5.congr ?_⟩
  · simp only [Option.bind_eq_bind]
    rw [hjb', e1, Option.bind_some, e3, Option.bind_some, hw2.2, e5, Option.bind_some, hs.1, hs.2.1,
      show n - ib - (jg + 1) = n - ib - 1 - jg by omega, e7, Option.bind_some, f1, Option.bind_some, f3, Option.bind_some]
  · intro x hx1 hx2 y hy1 hy2
    rw [hR, Nat.add_zero]
    unfold grpF
    rw [hib, hrows]
    by_cases hx : ib + 1 + jg ≤ x ∧ x < ib + 1 + jg + (n - ib - 1 - jg)
    · rw [if_pos ⟨hx, hy1, hy2⟩, if_pos hx, one_mul, neg_one_mul, neg_add_eq_sub]
      congr 1
      refine Finset.sum_congr rfl fun c _ => ?_
      rw [Nat.zero_add]
      congr 1
      rw [one_mul, zero_mul, add_zero, Finset.sum_Ico_eq_sum_range, Nat.add_sub_cancel_left]
      refine Finset.sum_congr rfl fun l _ => ?_
      congr 2
      congr 1 <;> omega
    · rw [if_neg (fun h => hx h.1), if_neg hx]

/-- `ApplyHHToDoubleTileRow` on two tiles. -/
theorem applyDouble_spec {E : T2BEnv K} (hG : 0 < E.group) {n b j st k q0 qw : Nat} (ok : BlkOK n b (j + st) j k)
    (hlast : (j + st + 1) * b < n) {V : Nat → Nat → K} {T : Nat → Nat → Nat → K} {v w w2 et eb : Blk K} {D : Elems K}
    (hv : IsWin v (blkV n b V j st) ((j + st) * b + 1) 0 (min (2 * b) (n - (j + st) * b) - 1) k)
    (hw : w.rows = min (2 * b) (n - (j + st) * b) - 1 ∧ w.cols = k)
    (hwe : ∀ g < ceilDivN k E.group, ∀ r < grpRows n b (j + st) (g * E.group) (grpW k E.group g), ∀ c < grpW k E.group g,
          w.e (g * E.group + r) (g * E.group + c) =
            grpWM n b V j st (g * E.group) (grpW k E.group g) (T g) ((j + st) * b + 1 + g * E.group + r) c)
    (hw2 : w2.rows = k ∧ w2.cols = qw) (het : IsWin et D ((j + st) * b) q0 (min b (n - (j + st) * b)) qw)
    (heb : IsWin eb D ((j + st + 1) * b) q0 (min b (n - (j + st + 1) * b)) qw) :
    ∃ et' eb', applyDouble E v w w2 (et, eb) = some (et', eb') ∧
      IsWin et' (grpsF n b V j st k E.group T D) ((j + st) * b) q0 (min b (n - (j + st) * b)) qw ∧
      IsWin eb' (grpsF n b V j st k E.group T D) ((j + st + 1) * b) q0 (min b (n - (j + st + 1) * b)) qw := by
  obtain ⟨hb, hj, hk1, hkb, hkn, hk2⟩ := id ok
  suffices H : ∃ e', applyDouble E v w w2 (et, eb) = some e' ∧
      IsWin e'.1 (grpsF n b V j st k E.group T D) ((j + st) * b) q0 (min b (n - (j + st) * b)) qw ∧
      IsWin e'.2 (grpsF n b V j st k E.group T D) ((j + st + 1) * b) q0 (min b (n - (j + st + 1) * b)) qw from by
    obtain ⟨e', h1, h2, h3⟩ := H
    exact ⟨e'.1, e'.2, h1, h2, h3⟩
  unfold applyDouble groupStarts
  rw [← List.map_reverse, forM'_map, hv.2.1]
  refine forM'_fold (R := fun D (e' : Blk K × Blk K) => IsWin e'.1 D ((j + st) * b) q0 (min b (n - (j + st) * b)) qw ∧
      IsWin e'.2 D ((j + st + 1) * b) q0 (min b (n - (j + st + 1) * b)) qw) _ ?_ D (et, eb) ⟨het, heb⟩
  rintro g hg D s ⟨hst, hsb⟩
  rw [List.mem_reverse, mem_upto] at hg
  have hlt := grp_lt hG hg.2
  have hle := grp_le (group := E.group) hlt
  have hpos := grp_pos hG hlt
  have hwg := hwe g hg.2
  have hww : IsWin w w.e 0 0 (min (2 * b) (n - (j + st) * b) - 1) k := ⟨hw.1, hw.2, fun r _ c _ => by rw [Nat.zero_add, Nat.zero_add]⟩
  have hw2w : IsWin w2 (fun l y => w2.e l (y - q0)) 0 q0 k qw :=
    ⟨hw2.1, hw2.2, fun r _ c _ => by beta_reduce; rw [Nat.zero_add, Nat.add_sub_cancel_left]⟩
  have hB : (j + st + 1) * b = (j + st) * b + b := by rw [Nat.add_mul, Nat.one_mul]
  rw [hB] at hlast hsb ⊢
  have hrows : grpRows n b (j + st) (g * E.group) (grpW k E.group g) =
      b - 1 - g * E.group + min (min b (n - ((j + st) * b + b))) (g * E.group + grpW k E.group g) := by
    unfold grpRows; generalize (j + st) * b = ib at *; omega
  have hR : (j + st) * b + (g * E.group + 1) = (j + st) * b + 1 + g * E.group := by omega
  rw [hrows] at hwg
  generalize hjg : g * E.group = jg at *
  generalize hjb : grpW k E.group g = jb at *
  have hjb' : min E.group (k - jg) = jb := by rw [← hjb, ← hjg]; rfl
  generalize hib : (j + st) * b = ib at *
  have htop : min b (n - ib) = b := by omega
  rw [htop] at hst ⊢
  generalize hbot : min (min b (n - (ib + b))) (jg + jb) = nbot at *
  obtain ⟨t1, a1, a2⟩ := sub_win hst (r := jg + 1) (c := 0) (rows := b - (jg + 1)) (cols := qw) (by omega) (by omega)
  obtain ⟨t2, a3, a4⟩ := sub_win hsb (r := 0) (c := 0) (rows := nbot) (cols := qw) (by omega) (by omega)
  obtain ⟨v1, b1, b2⟩ := sub_win hv (r := jg) (c := jg) (rows := b - (jg + 1)) (cols := jb) (by omega) (by omega)
  obtain ⟨v2, b3, b4⟩ := sub_win hv (r := b - 1) (c := jg) (rows := nbot) (cols := jb) (by omega) (by omega)
  obtain ⟨w1, c1, c2⟩ := sub_win hww (r := jg) (c := jg) (rows := b - (jg + 1)) (cols := jb) (by omega) (by omega)
  obtain ⟨w3, c3, c4⟩ := sub_win hww (r := b - 1) (c := jg) (rows := nbot) (cols := jb) (by omega) (by omega)
  obtain ⟨z1, d1, d2⟩ := sub_win hw2w (r := 0) (c := 0) (rows := jb) (cols := qw) (by omega) (by omega)
  rw [hR] at a2
  simp only [Nat.add_zero, Nat.zero_add] at a2 a4 b2 b4 c2 c4 d2
  rw [show ib + 1 + (b - 1) = ib + b by omega] at b4
  have hw1 : IsWin w1 (grpWM n b V j st jg jb (T g)) (ib + 1 + jg) 0 (b - (jg + 1)) jb := by
    refine ⟨c2.1, c2.2.1, fun r hr c hc => ?_⟩
    rw [c2.2.2 r hr c hc, Nat.zero_add, hwg r (by omega) c hc]
  have hw3 : IsWin w3 (grpWM n b V j st jg jb (T g)) (ib + b) 0 nbot jb := by
    refine ⟨c4.1, c4.2.1, fun r hr c hc => ?_⟩
    rw [c4.2.2 r hr c hc, Nat.zero_add, show b - 1 + r = jg + (b - 1 - jg + r) by omega, hwg _ (by omega) c hc]
    congr 1; omega
  have b2c := (conj_win b2).shift 0 (ib + 1 + jg)
  have b4c := (conj_win b4).shift 0 (ib + b)
  obtain ⟨y1, f1, f2⟩ := gemm_win .ConjTrans .NoTrans 1 0 b2c (b := t1) a2 d2
  obtain ⟨y2, f3, f4⟩ := gemm_win .ConjTrans .NoTrans 1 1 b4c (b := t2) a4 f2
  have f4' : IsWin y2 (fun c y => ∑ z ∈ Finset.Ico (ib + 1 + jg) (ib + 1 + jg + (b - 1 - jg + nbot)),
      star (blkV n b V j st z (jg + c)) * D z y) 0 q0 jb qw := by
    refine f4.congr fun c hc1 hc2 y _ _ => ?_
    rw [← Finset.sum_Ico_consecutive _ (show ib + 1 + jg ≤ ib + b by omega) (show ib + b ≤ ib + 1 + jg + (b - 1 - jg + nbot) by omega),
      Finset.sum_Ico_eq_sum_range, Finset.sum_Ico_eq_sum_range, show ib + b - (ib + 1 + jg) = b - (jg + 1) by omega,
      show ib + 1 + jg + (b - 1 - jg + nbot) - (ib + b) = nbot by omega, one_mul, one_mul, one_mul, zero_mul, add_zero, add_comm]
    congr 1
    · refine Finset.sum_congr rfl fun l _ => ?_
      congr 2
      congr 1 <;> omega
    · refine Finset.sum_congr rfl fun l _ => ?_
      congr 2
      congr 1 <;> omega
  obtain ⟨x1, g1, g2⟩ := gemm_win .NoTrans .NoTrans (-1) 1 (a := w1) hw1 (b := y2) f4' a2
  obtain ⟨x2, g3, g4⟩ := gemm_win .NoTrans .NoTrans (-1) 1 (a := w3) hw3 (b := y2) f4' a4
  have p1 := putTile_win hst (r := jg + 1) (c := 0) (s := x1) (rows := b - (jg + 1)) (cols := qw) (by rw [hR, Nat.add_zero]; exact g2)
  have p2 := putTile_win hsb (r := 0) (c := 0) (s := x2) (rows := nbot) (cols := qw) (by rw [Nat.add_zero, Nat.add_zero]; exact g4)
  refine ⟨(putTile s.1 (jg + 1) 0 x1, putTile s.2 0 0 x2), ?_, p1.congr ?_, p2.congr ?_⟩
  · simp only [Option.bind_eq_bind]
    rw [hjb', hst.1, hst.2.1, a1, Option.bind_some, hsb.1, hsb.2.1, hbot, a3, Option.bind_some, a2.1, b1, Option.bind_some,
      a4.1, b3, Option.bind_some, c1, Option.bind_some, c3, Option.bind_some, hw2.2, d1, Option.bind_some, f1, Option.bind_some,
      f3, Option.bind_some, g1, Option.bind_some, g3, Option.bind_some]
  · intro x hx1 hx2 y hy1 hy2
    rw [hR, Nat.add_zero]
    unfold grpF
    rw [hib, hrows]
    by_cases hx : ib + 1 + jg ≤ x ∧ x < ib + 1 + jg + (b - (jg + 1))
    · rw [if_pos ⟨hx, hy1, hy2⟩, if_pos (by omega), one_mul, neg_one_mul, neg_add_eq_sub]
      simp only [Nat.zero_add]
    · rw [if_neg (fun h => hx h.1), if_neg (by omega)]
  · intro x hx1 hx2 y hy1 hy2
    rw [Nat.add_zero, Nat.add_zero]
    unfold grpF
    rw [hib, hrows]
    by_cases hx : ib + b ≤ x ∧ x < ib + b + nbot
    · rw [if_pos ⟨hx, hy1, hy2⟩, if_pos (by omega), one_mul, neg_one_mul, neg_add_eq_sub]
      simp only [Nat.zero_add]
    · rw [if_neg (fun h => hx h.1), if_neg (by omega)]

end DLAF
