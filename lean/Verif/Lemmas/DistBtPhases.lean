import Verif.Lemmas.DistBtTasks
import Verif.Lemmas.DistElemPhase
import Verif.Lemmas.DistCholesky
/- The local phases of an iteration of the distributed back-transformation of the reduction to band. -/
namespace DLAF
variable {K : Type*}

theorem DBtSt.rV_ok : (DBtSt.rV (K := K)).OK := ⟨fun _ _ => rfl, fun _ => rfl, fun _ _ _ => rfl⟩
theorem DBtSt.rW_ok : (DBtSt.rW (K := K)).OK := ⟨fun _ _ => rfl, fun _ => rfl, fun _ _ _ => rfl⟩
theorem DBtSt.rW2_ok : (DBtSt.rW2 (K := K)).OK := ⟨fun _ _ => rfl, fun _ => rfl, fun _ _ _ => rfl⟩
theorem DBtSt.rT_ok : (DBtSt.rT (K := K)).OK := ⟨fun _ _ => rfl, fun _ => rfl, fun _ _ _ => rfl⟩

/-- The elements of `s` with `p`. -/
noncomputable def cfilter (s : Finset Int) (p : Int → Prop) : Finset Int := @Finset.filter _ p (Classical.decPred p) s

theorem mem_cfilter {s : Finset Int} {p : Int → Prop} {i : Int} : i ∈ cfilter s p ↔ i ∈ s ∧ p i := by
  unfold cfilter
  exact @Finset.mem_filter _ p (Classical.decPred p) s i

namespace DistBt
variable [Field K] [StarRing K]

/-- The matrices of one process. -/
structure Base (PV : Params2) (cc : Params) (n mb nc nbc b : Nat) (dt : Dist1) (V : Elems K) (taus : Nat → K) (C : Elems K) (r : Coord2) (s : DBtSt K) : Prop where
  c : WinAt ⟨PV.row, cc⟩ n mb nc nbc r C s.c
  v : WinAt PV n mb n mb r V s.v
  tau : TausAt PV.col n mb b r.col taus dt s.tau

/-- A panel of rows holds the columns of `M`. -/
def HasRows (p : Params) (n mb off q : Nat) (M : Elems K) (pan : EPanel K) : Prop :=
  ∀ i ∈ View.tiles p.dist ((off : Nat) : Int), ∃ v, pan i = some v ∧ IsWin v M (pieceOf mb n off (p.gn i)).1 0 (pieceOf mb n off (p.gn i)).2 q

/-- A panel of columns holds the rows of `M`. -/
def HasCols (p : Params) (nc nbc q : Nat) (M : Elems K) (pan : EPanel K) : Prop :=
  ∀ j ∈ View.tiles p.dist ((0 : Nat) : Int), ∃ v, pan j = some v ∧ IsWin v M 0 (p.gn j * nbc) q (min nbc (nc - p.gn j * nbc))

section
variable {PV : Params2} {cc : Params} {n mb nc nbc b k : Nat} {r : Coord2} {dt : Dist1} {V C : Elems K} {taus : Nat → K}
variable (hr : Ax (PV.row.onRank r.row) n mb) (hv : Ax (PV.col.onRank r.col) n mb) (hc : Ax (cc.onRank r.col) nc nbc) (hk : k * mb < n - b - 1)
include hr hv hk

/-- Panel V and the local part of T. -/
theorem phaseA {avail : Nat} (ha : 0 < avail) (junk : Int → Blk K) (ho : PV.col.dist.rank_global_tile k = r.col) {s : DBtSt K}
    (hb : Base PV cc n mb nc nbc b dt V taus C r s) :
    ∃ s', runLocs ((View.tiles (PV.row.onRank r.row).dist ((k * mb + b : Nat) : Int)).map (setV n mb b (PV.on r) k) ++
        [tLocal n mb b avail junk (PV.on r) dt k]) s = some s' ∧
      Base PV cc n mb nc nbc b dt V taus C r s' ∧
      HasRows (PV.row.onRank r.row) n mb (k * mb + b) (min mb (n - b - 1 - k * mb)) (fun x c => storedRefl b V x (k * mb + c)) s'.pV ∧
      ∃ f : Nat → Nat → K, s'.pT ((PV.col.onRank r.col).lc k) = some ⟨min mb (n - b - 1 - k * mb), min mb (n - b - 1 - k * mb), f⟩ ∧
      (∀ c < min mb (n - b - 1 - k * mb), ∀ i < c, f i c = -(taus (k * mb + c)) *
        gramAt (PV.row.onRank r.row) mb n (k * mb + b) (fun x c => storedRefl b V x (k * mb + c)) i c) ∧
      ∀ c < min mb (n - b - 1 - k * mb), ∀ i, c < i → f i c = 0 := by
  obtain ⟨s1, h1, h2, h3⟩ := runLocs_each (f := setV n mb b (PV.on r) k) (s := s) (view_nodup (PV.row.onRank r.row).dist ((k * mb + b : Nat) : Int))
    (fun D s' => Base PV cc n mb nc nbc b dt V taus C r s' ∧ ∀ i, D i → ∃ v, s'.pV i = some v ∧
      IsWin v (fun x c => storedRefl b V x (k * mb + c)) (pieceOf mb n (k * mb + b) ((PV.row.onRank r.row).gn i)).1 0
        (pieceOf mb n (k * mb + b) ((PV.row.onRank r.row).gn i)).2 (min mb (n - b - 1 - k * mb)))
    ⟨hb, fun _ h => absurd h id⟩ (by
      intro D i s' hi _ _ ⟨hb', hD⟩
      obtain ⟨d, d1, d2⟩ := setV_win hr hv hk ho hb'.v hi
      refine ⟨_, d1, ⟨hb'.c, hb'.v, hb'.tau⟩, fun y hy => ?_⟩
      by_cases hyi : y = i
      · subst hyi
        exact ⟨d, by simp [set1], d2⟩
      · obtain ⟨v, v1, v2⟩ := hD y (hy.resolve_right hyi)
        exact ⟨v, by simp [set1, hyi, v1], v2⟩)
  obtain ⟨f, f1, f2, f3⟩ := tLocal_win hr hv hk ha junk ho h2.tau (VF := fun x c => storedRefl b V x (k * mb + c))
    (vb := fun i => (s1.pV i).getD (Blk.zero 0 0)) (by
      intro i hi
      obtain ⟨v, v1, v2⟩ := h3 i hi
      beta_reduce
      rw [v1]
      exact ⟨rfl, v2⟩)
  have hrun := runLocs_append ((View.tiles (PV.row.onRank r.row).dist ((k * mb + b : Nat) : Int)).map (setV n mb b (PV.on r) k))
    [tLocal n mb b avail junk (PV.on r) dt k] s
  rw [h1, Option.bind_some, runLocs_one, f1] at hrun
  exact ⟨_, hrun, ⟨h2.c, h2.v, h2.tau⟩, h3, f, by simp [set1], f2, f3⟩

/-- The end of T, panel W. -/
theorem phaseC1 (junk : Int → Blk K) (ho : PV.col.dist.rank_global_tile k = r.col) {s : DBtSt K}
    (hb : Base PV cc n mb nc nbc b dt V taus C r s) {VF : Elems K}
    (hV : HasRows (PV.row.onRank r.row) n mb (k * mb + b) (min mb (n - b - 1 - k * mb)) VF s.pV) {t : Blk K}
    (hp : s.pT ((PV.col.onRank r.col).lc k) = some t) {F : Nat → Nat → K} (htc : t.cols = min mb (n - b - 1 - k * mb))
    (hF : copyDiagTrmv (tausBlk mb n b k taus) t = ⟨min mb (n - b - 1 - k * mb), min mb (n - b - 1 - k * mb), F⟩)
    (hF0 : ∀ c < min mb (n - b - 1 - k * mb), ∀ i < min mb (n - b - 1 - k * mb), c < i → F i c = 0) :
    ∃ s', runLocs ([tFinish n mb b (PV.on r) dt k] ++
        (View.tiles (PV.row.onRank r.row).dist ((k * mb + b : Nat) : Int)).map (setW n mb b junk (PV.on r) k)) s = some s' ∧
      Base PV cc n mb nc nbc b dt V taus C r s' ∧
      HasRows (PV.row.onRank r.row) n mb (k * mb + b) (min mb (n - b - 1 - k * mb)) VF s'.pV ∧
      HasRows (PV.row.onRank r.row) n mb (k * mb + b) (min mb (n - b - 1 - k * mb))
        (fun x c => ∑ l ∈ Finset.range (min mb (n - b - 1 - k * mb)), VF x l * star (F c l)) s'.pW := by
  have e0 := tFinish_win hr hv hk ho hb.tau hp htc hF
  obtain ⟨s1, h1, h2, h3, h4, h5⟩ := runLocs_each (f := setW n mb b junk (PV.on r) k)
    (s := { s with pT := set1 s.pT ((PV.col.onRank r.col).lc k) (some ⟨min mb (n - b - 1 - k * mb), min mb (n - b - 1 - k * mb), F⟩) })
    (view_nodup (PV.row.onRank r.row).dist ((k * mb + b : Nat) : Int))
    (fun D s' => Base PV cc n mb nc nbc b dt V taus C r s' ∧
      HasRows (PV.row.onRank r.row) n mb (k * mb + b) (min mb (n - b - 1 - k * mb)) VF s'.pV ∧
      s'.pT ((PV.col.onRank r.col).lc k) = some ⟨min mb (n - b - 1 - k * mb), min mb (n - b - 1 - k * mb), F⟩ ∧
      ∀ i, D i → ∃ v, s'.pW i = some v ∧
      IsWin v (fun x c => ∑ l ∈ Finset.range (min mb (n - b - 1 - k * mb)), VF x l * star (F c l))
        (pieceOf mb n (k * mb + b) ((PV.row.onRank r.row).gn i)).1 0
        (pieceOf mb n (k * mb + b) ((PV.row.onRank r.row).gn i)).2 (min mb (n - b - 1 - k * mb)))
    ⟨⟨hb.c, hb.v, hb.tau⟩, hV, by simp [set1], fun _ h => absurd h id⟩ (by
      intro D i s' hi _ _ ⟨hb', hV', hT', hD⟩
      obtain ⟨v, v1, v2⟩ := hV' i hi
      obtain ⟨d, d1, d2⟩ := setW_win hr hv hk junk hT' hF0 hi v1 v2
      refine ⟨_, d1, ⟨hb'.c, hb'.v, hb'.tau⟩, hV', hT', fun y hy => ?_⟩
      by_cases hyi : y = i
      · subst hyi
        exact ⟨d, by simp [set1], d2⟩
      · obtain ⟨v, v1, v2⟩ := hD y (hy.resolve_right hyi)
        exact ⟨v, by simp [set1, hyi, v1], v2⟩)
  refine ⟨s1, ?_, h2, h3, h5⟩
  rw [runLocs_append, runLocs_one, e0, Option.bind_some, h1]

include hc
omit hv

/-- Zero W2. -/
theorem phaseC2 {s : DBtSt K} :
    ∃ s', runLocs ((View.tiles (cc.onRank r.col).dist ((0 : Nat) : Int)).map (zeroW2 n mb b ((⟨PV.row, cc⟩ : Params2).on r) k)) s = some s' ∧
      (s'.c = s.c ∧ s'.v = s.v ∧ s'.tau = s.tau ∧ s'.pV = s.pV ∧ s'.pW = s.pW) ∧
      HasCols (cc.onRank r.col) nc nbc (min mb (n - b - 1 - k * mb)) (fun _ _ => 0) s'.pW2 := by
  refine runLocs_each (f := zeroW2 n mb b ((⟨PV.row, cc⟩ : Params2).on r) k) (s := s)
    (view_nodup (cc.onRank r.col).dist ((0 : Nat) : Int))
    (fun D s' => (s'.c = s.c ∧ s'.v = s.v ∧ s'.tau = s.tau ∧ s'.pV = s.pV ∧ s'.pW = s.pW) ∧
      ∀ j, D j → ∃ v, s'.pW2 j = some v ∧ IsWin v (fun _ _ => 0) 0 ((cc.onRank r.col).gn j * nbc) (min mb (n - b - 1 - k * mb))
        (min nbc (nc - (cc.onRank r.col).gn j * nbc)))
    ⟨⟨rfl, rfl, rfl, rfl, rfl⟩, fun _ h => absurd h id⟩ ?_
  intro D j s' hj _ _ ⟨hb', hD⟩
  refine ⟨_, zeroW2_win hr hc hk hj, hb', fun y hy => ?_⟩
  by_cases hyi : y = j
  · subst hyi
    exact ⟨Blk.zero (min mb (n - b - 1 - k * mb)) (min nbc (nc - (cc.onRank r.col).gn y * nbc)), by simp [set1], rfl, rfl, fun _ _ _ _ => rfl⟩
  · obtain ⟨v, v1, v2⟩ := hD y (hy.resolve_right hyi)
    exact ⟨v, by simp [set1, hyi, v1], v2⟩

omit [Field K] [StarRing K] hr hc hk in
theorem cTiles_nodup (mb b : Int) (dc : Distribution) (k : Int) : (cTiles mb b dc k).Nodup := by
  unfold cTiles
  rw [List.nodup_flatMap]
  refine ⟨fun j _ => (view_nodup _ _).map fun x y h => by cases h; rfl, ?_⟩
  refine (view_nodup dc.col 0).imp fun {a c} hne => ?_
  rw [Function.onFun, List.disjoint_left]
  intro z h1 h2
  obtain ⟨x, _, rfl⟩ := List.mem_map.1 h1
  obtain ⟨y, _, h⟩ := List.mem_map.1 h2
  cases h
  exact hne rfl

omit [Field K] [StarRing K] hr hc hk in
theorem mem_cTiles {i j : Int} : (⟨i, j⟩ : Coord2) ∈ cTiles mb b ((⟨PV.row, cc⟩ : Params2).on r) k ↔
    i ∈ View.tiles (PV.row.onRank r.row).dist ((k * mb + b : Nat) : Int) ∧ j ∈ View.tiles (cc.onRank r.col).dist ((0 : Nat) : Int) := by
  unfold cTiles
  rw [off_eq, List.mem_flatMap]
  constructor
  · rintro ⟨j', h1, h2⟩
    obtain ⟨i', h3, h4⟩ := List.mem_map.1 h2
    cases h4
    exact ⟨h3, h1⟩
  · rintro ⟨h1, h2⟩
    exact ⟨j, h2, List.mem_map.2 ⟨i, h1, rfl⟩⟩

/-- `W2 += Wᴴ C` on the local tiles. -/
theorem phaseE {W : Elems K} {s : DBtSt K} (hb : Base PV cc n mb nc nbc b dt V taus C r s)
    (hW : HasRows (PV.row.onRank r.row) n mb (k * mb + b) (min mb (n - b - 1 - k * mb)) W s.pW)
    (h0 : HasCols (cc.onRank r.col) nc nbc (min mb (n - b - 1 - k * mb)) (fun _ _ => 0) s.pW2) :
    ∃ s', runLocs ((cTiles mb b ((⟨PV.row, cc⟩ : Params2).on r) k).map (addW2 n mb b ((⟨PV.row, cc⟩ : Params2).on r) k)) s = some s' ∧
      (s'.c = s.c ∧ s'.v = s.v ∧ s'.tau = s.tau ∧ s'.pV = s.pV) ∧
      HasCols (cc.onRank r.col) nc nbc (min mb (n - b - 1 - k * mb)) (fun l y =>
        ∑ i ∈ (View.tiles (PV.row.onRank r.row).dist ((k * mb + b : Nat) : Int)).toFinset,
          ∑ x ∈ Finset.range (pieceOf mb n (k * mb + b) ((PV.row.onRank r.row).gn i)).2,
            star (W ((pieceOf mb n (k * mb + b) ((PV.row.onRank r.row).gn i)).1 + x) l) *
              C ((pieceOf mb n (k * mb + b) ((PV.row.onRank r.row).gn i)).1 + x) y) s'.pW2 := by
  classical
  refine Exists.elim (runLocs_each (f := addW2 n mb b ((⟨PV.row, cc⟩ : Params2).on r) k) (s := s) (cTiles_nodup mb b ((⟨PV.row, cc⟩ : Params2).on r) k)
    (fun D s' => (s'.c = s.c ∧ s'.v = s.v ∧ s'.tau = s.tau ∧ s'.pV = s.pV ∧ s'.pW = s.pW) ∧
      ∀ j ∈ View.tiles (cc.onRank r.col).dist ((0 : Nat) : Int), ∃ v, s'.pW2 j = some v ∧ IsWin v (fun l y =>
        ∑ i ∈ cfilter (View.tiles (PV.row.onRank r.row).dist ((k * mb + b : Nat) : Int)).toFinset (fun i => D ⟨i, j⟩),
          ∑ x ∈ Finset.range (pieceOf mb n (k * mb + b) ((PV.row.onRank r.row).gn i)).2,
            star (W ((pieceOf mb n (k * mb + b) ((PV.row.onRank r.row).gn i)).1 + x) l) *
              C ((pieceOf mb n (k * mb + b) ((PV.row.onRank r.row).gn i)).1 + x) y) 0 ((cc.onRank r.col).gn j * nbc) (min mb (n - b - 1 - k * mb))
        (min nbc (nc - (cc.onRank r.col).gn j * nbc))) ?_ ?_) ?_
  · refine ⟨⟨rfl, rfl, rfl, rfl, rfl⟩, fun j hj => ?_⟩
    obtain ⟨v, v1, v2⟩ := h0 j hj
    refine ⟨v, v1, v2.congr fun x _ _ y _ _ => ?_⟩
    symm
    refine Finset.sum_eq_zero fun i hi => ?_
    rw [mem_cfilter] at hi
    exact absurd hi.2 id
  · intro D z s' hz hnD _ ⟨⟨e1, e2, e3, e4, e5⟩, hD⟩
    obtain ⟨i, j⟩ := z
    obtain ⟨hi, hj⟩ := mem_cTiles.1 hz
    obtain ⟨w, w1, w2⟩ := hW i hi
    obtain ⟨v, v1, v2⟩ := hD j hj
    obtain ⟨d, d1, d2⟩ := addW2_win hr hc hk (s := s') (by rw [e1]; exact hb.c) hi hj (by rw [e5]; exact w1) w2 v1 v2
    refine ⟨_, d1, ⟨e1, e2, e3, e4, e5⟩, fun y hy => ?_⟩
    by_cases hyj : y = j
    · subst hyj
      refine ⟨d, by simp [set1], d2.congr fun l _ _ c _ _ => ?_⟩
      refine Eq.trans (Finset.sum_insert (f := fun i => ∑ x ∈ Finset.range (pieceOf mb n (k * mb + b) ((PV.row.onRank r.row).gn i)).2,
            star (W ((pieceOf mb n (k * mb + b) ((PV.row.onRank r.row).gn i)).1 + x) l) *
              C ((pieceOf mb n (k * mb + b) ((PV.row.onRank r.row).gn i)).1 + x) c) (fun h => hnD (mem_cfilter.1 h).2)).symm
        (Finset.sum_congr ?_ fun _ _ => rfl)
      ext t
      simp only [mem_cfilter, Finset.mem_insert, List.mem_toFinset]
      constructor
      · rintro (rfl | ⟨t1, t2⟩)
        · exact ⟨hi, .inr rfl⟩
        · exact ⟨t1, .inl t2⟩
      · rintro ⟨t1, t2 | t2⟩
        · exact .inr ⟨t1, t2⟩
        · cases t2; exact .inl rfl
    · obtain ⟨v, v1, v2⟩ := hD y hy
      refine ⟨v, by simp [set1, hyj, v1], v2.congr fun l _ _ c _ _ => Finset.sum_congr (Finset.ext fun t => ?_) fun _ _ => rfl⟩
      rw [mem_cfilter, mem_cfilter]
      refine and_congr_right fun _ => ?_
      constructor
      · exact .inl
      · rintro (h | h)
        · exact h
        · cases h; exact absurd rfl hyj
  · rintro s' ⟨h1, ⟨e1, e2, e3, e4, _⟩, hD⟩
    refine ⟨s', h1, ⟨e1, e2, e3, e4⟩, fun j hj => ?_⟩
    obtain ⟨v, v1, v2⟩ := hD j hj
    refine ⟨v, v1, v2.congr fun l _ _ c _ _ => ?_⟩
    refine Finset.sum_congr (Finset.ext fun i => ?_) fun _ _ => rfl
    rw [mem_cfilter]
    refine and_iff_left_of_imp fun hi => ?_
    rw [List.mem_toFinset] at hi
    exact mem_cTiles.2 ⟨hi, hj⟩

/-- `C -= V W2` on the local tiles. -/
theorem phaseH {VF W2 : Elems K} {s : DBtSt K} (hb : Base PV cc n mb nc nbc b dt V taus C r s)
    (hV : HasRows (PV.row.onRank r.row) n mb (k * mb + b) (min mb (n - b - 1 - k * mb)) VF s.pV)
    (hW2 : HasCols (cc.onRank r.col) nc nbc (min mb (n - b - 1 - k * mb)) W2 s.pW2) :
    ∃ s', runLocs ((cTiles mb b ((⟨PV.row, cc⟩ : Params2).on r) k).map (subC mb b ((⟨PV.row, cc⟩ : Params2).on r) k)) s = some s' ∧
      Base PV cc n mb nc nbc b dt V taus (fun x y => if (k * mb + b ≤ x ∧ x < n) ∧ (0 ≤ y ∧ y < nc) then
          C x y - ∑ l ∈ Finset.range (min mb (n - b - 1 - k * mb)), VF x l * W2 l y else C x y) r s' := by
  refine Exists.elim (runLocs_each (f := subC mb b ((⟨PV.row, cc⟩ : Params2).on r) k) (s := s) (cTiles_nodup mb b ((⟨PV.row, cc⟩ : Params2).on r) k)
    (fun D s' => (s'.v = s.v ∧ s'.tau = s.tau ∧ s'.pV = s.pV ∧ s'.pW2 = s.pW2) ∧
      (∀ z, ¬ D z → s'.c z = s.c z) ∧
      ∀ i j, D ⟨i, j⟩ → IsWin (s'.c ⟨i, j⟩) (fun x y => if (k * mb + b ≤ x ∧ x < n) ∧ (0 ≤ y ∧ y < nc) then
          C x y - ∑ l ∈ Finset.range (min mb (n - b - 1 - k * mb)), VF x l * W2 l y else C x y)
        ((PV.row.onRank r.row).gn i * mb) ((cc.onRank r.col).gn j * nbc)
        (min mb (n - (PV.row.onRank r.row).gn i * mb)) (min nbc (nc - (cc.onRank r.col).gn j * nbc))) ?_ ?_) ?_
  · exact ⟨⟨rfl, rfl, rfl, rfl⟩, fun _ _ => rfl, fun _ _ h => absurd h id⟩
  · intro D z s' hz hnD _ ⟨⟨e1, e2, e3, e4⟩, hn, hD⟩
    obtain ⟨i, j⟩ := z
    obtain ⟨hi, hj⟩ := mem_cTiles.1 hz
    obtain ⟨v, v1, v2⟩ := hV i hi
    obtain ⟨w, w1, w2⟩ := hW2 j hj
    have hi' := hr.mem_view.1 hi
    have hj' := hc.mem_view.1 hj
    obtain ⟨d, d1, d2⟩ := subC_win hr hc hk (s := s') (C := C) hi hj (by rw [e3]; exact v1)
      (by rw [hn _ hnD]; exact hb.c i j hi'.1 hi'.2.1 hj'.1 hj'.2.1) v2 (by rw [e4]; exact w1) w2
    refine ⟨_, d1, ⟨e1, e2, e3, e4⟩, fun z hz' => ?_, fun i' j' h => ?_⟩
    · simp only [set1]
      rw [if_neg fun h => hz' (.inr h)]
      exact hn z fun h => hz' (.inl h)
    · by_cases hz' : (⟨i', j'⟩ : Coord2) = ⟨i, j⟩
      · cases hz'
        simpa [set1] using d2
      · simp only [set1]
        rw [if_neg hz']
        exact hD i' j' (h.resolve_right hz')
  · rintro s' ⟨h1, ⟨e1, e2, e3, e4⟩, hn, hD⟩
    refine ⟨s', h1, ?_, by rw [e1]; exact hb.v, by rw [e2]; exact hb.tau⟩
    intro i j h2 h3 h4 h5
    by_cases hz : (⟨i, j⟩ : Coord2) ∈ cTiles mb b ((⟨PV.row, cc⟩ : Params2).on r) k
    · exact hD i j hz
    · rw [hn _ hz]
      refine (hb.c i j h2 h3 h4 h5).congr fun x q1 q2 y q3 q4 => ?_
      rw [if_neg]
      intro h6
      rw [mem_cTiles, hr.mem_view, hc.mem_view] at hz
      have hlt : (PV.row.onRank r.row).gn i < (k * mb + b) / mb := by
        by_contra hge
        refine hz ⟨⟨h2, h3, by omega⟩, h4, h5, ?_⟩
        rw [Nat.zero_div]; exact Nat.zero_le _
      have h7 := Nat.mul_le_mul_right mb (Nat.succ_le_of_lt hlt)
      rw [Nat.succ_mul] at h7
      have h8 := Nat.div_mul_le_self (k * mb + b) mb
      have h9 : x < (PV.row.onRank r.row).gn i * mb + min mb (n - (PV.row.onRank r.row).gn i * mb) := q2
      omega

end
end DistBt
end DLAF
