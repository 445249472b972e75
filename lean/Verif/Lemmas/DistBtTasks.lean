import Verif.Model.DistBtRedBand
import Verif.Lemmas.DistWin
import Verif.Props.BtRedBand
/- The tasks of the distributed back-transformation of the reduction to band on one process. -/
namespace DLAF
variable {K : Type*}

theorem IsWin.of_eq {b b' : Blk K} {M : Elems K} {r0 c0 rows cols : Nat} (h : IsWin b M r0 c0 rows cols) (h1 : b'.rows = rows) (h2 : b'.cols = cols)
    (he : ∀ r < rows, ∀ c < cols, b'.e r c = b.e r c) : IsWin b' M r0 c0 rows cols :=
  ⟨h1, h2, fun r hr c hc => by rw [he r hr c hc, h.2.2 r hr c hc]⟩

theorem Blk.sub_win {t : Blk K} {M : Elems K} {R0 C0 rows cols r0 c0 h w : Nat} (ht : IsWin t M R0 C0 rows cols) (hr : r0 + h ≤ rows) (hc : c0 + w ≤ cols) :
    ∃ d, t.sub r0 c0 h w = some d ∧ IsWin d M (R0 + r0) (C0 + c0) h w := by
  unfold Blk.sub
  rw [if_pos ⟨by rw [ht.1]; exact hr, by rw [ht.2.1]; exact hc⟩]
  refine ⟨_, rfl, rfl, rfl, fun r hr' c hc' => ?_⟩
  dsimp only
  rw [ht.2.2 _ (by omega) _ (by omega), Nat.add_assoc, Nat.add_assoc]

theorem Blk.onSub_win {t : Blk K} {M N : Elems K} {R0 C0 rows cols r0 c0 h w : Nat} {f : Blk K → Option (Blk K)} (ht : IsWin t M R0 C0 rows cols)
    (hr : r0 + h ≤ rows) (hc : c0 + w ≤ cols)
    (hf : ∀ d, IsWin d M (R0 + r0) (C0 + c0) h w → ∃ e, f d = some e ∧ IsWin e N (R0 + r0) (C0 + c0) h w)
    (hN : ∀ x y, R0 ≤ x → x < R0 + rows → C0 ≤ y → y < C0 + cols →
      ¬ ((R0 + r0 ≤ x ∧ x < R0 + r0 + h) ∧ (C0 + c0 ≤ y ∧ y < C0 + c0 + w)) → N x y = M x y) :
    ∃ t', t.onSub r0 c0 h w f = some t' ∧ IsWin t' N R0 C0 rows cols := by
  obtain ⟨d, h1, h2⟩ := Blk.sub_win ht hr hc
  obtain ⟨e, h3, h4⟩ := hf d h2
  unfold Blk.onSub
  rw [h1, Option.bind_some, h3, Option.bind_some, if_pos ⟨h4.1, h4.2.1⟩]
  refine ⟨_, rfl, ht.1, ht.2.1, fun r hr' c hc' => ?_⟩
  simp only [Blk.put, h4.1, h4.2.1]
  split
  · rename_i hin
    rw [h4.2.2 _ (by omega) _ (by omega), show R0 + r0 + (r - r0) = R0 + r by omega, show C0 + c0 + (c - c0) = C0 + c by omega]
  · rename_i hout
    rw [ht.2.2 r hr' c hc', hN _ _ (by omega) (by omega) (by omega) (by omega) (by omega)]

/-- What a process holds of a matrix. -/
def WinAt (P : Params2) (n1 nb1 n2 nb2 : Nat) (r : Coord2) (M : Elems K) (loc : Coord2 → Blk K) : Prop :=
  ∀ i j, 0 ≤ i → i < (P.row.onRank r.row).dist.localNrTiles → 0 ≤ j → j < (P.col.onRank r.col).dist.localNrTiles →
    IsWin (loc ⟨i, j⟩) M ((P.row.onRank r.row).gn i * nb1) ((P.col.onRank r.col).gn j * nb2)
      (min nb1 (n1 - (P.row.onRank r.row).gn i * nb1)) (min nb2 (n2 - (P.col.onRank r.col).gn j * nb2))

/-- The taus: tile `k` on the processes of the column of tile `k`. -/
def TausAt (p : Params) (n mb b : Nat) (q : Int) (taus : Nat → K) (dt : Dist1) (loc : Int → Blk K) : Prop :=
  ∀ k : Nat, k * mb < n - b - 1 → p.dist.rank_global_tile k = q →
    ((loc (dt.local_tile_from_global_tile k)).rows = min mb (n - b - 1 - k * mb) ∧ (loc (dt.local_tile_from_global_tile k)).cols = 1) ∧
    ∀ x < min mb (n - b - 1 - k * mb), (loc (dt.local_tile_from_global_tile k)).e x 0 = taus (k * mb + x)

theorem Ax.onRank {p : Params} {n nb : Nat} (h : Ax p n nb) {q : Int} (h0 : 0 ≤ q) (h1 : q < p.grid) : Ax (p.onRank q) n nb :=
  ⟨h.plain.onRank h0 h1, h.size, h.tile⟩

namespace DistBt
variable [Field K] [StarRing K]

theorem nr_eq {n mb b k : Nat} (hk : k * mb < n - b - 1) : nr n mb b k = min mb (n - b - 1 - k * mb) := by
  unfold nr
  have : (k : Int) * (mb : Int) = ((k * mb : Nat) : Int) := by push_cast; rfl
  rw [this]
  omega

theorem off_eq (mb b k : Nat) : off mb b k = ((k * mb + b : Nat) : Int) := by
  unfold off
  push_cast
  rfl

section
variable {PV : Params2} {cc : Params} {n mb nc nbc b k : Nat} {r : Coord2}
variable (hr : Ax (PV.row.onRank r.row) n mb) (hc : Ax (PV.col.onRank r.col) n mb) (hk : k * mb < n - b - 1)
include hr hk

theorem vSize_eq {i : Int} (hi : i ∈ View.tiles (PV.row.onRank r.row).dist ((k * mb + b : Nat) : Int)) :
    vSize n mb b (PV.on r) k i =
      ((pieceOf mb n (k * mb + b) ((PV.row.onRank r.row).gn i)).2, min mb (n - b - 1 - k * mb)) := by
  rw [hr.mem_view] at hi
  unfold vSize
  rw [nr_eq hk, off_eq]
  have e1 : (PV.on r).row = (PV.row.onRank r.row).dist := rfl
  rw [e1, hr.sz hi.1 hi.2.1, hr.panelCut hi.1]
  unfold pieceOf
  dsimp only
  congr 1
  omega

include hc
variable {V C : Elems K} {taus : Nat → K}

/-- The column of `V` with the block. -/
theorem own_col (ho : PV.col.dist.rank_global_tile k = r.col) :
    (PV.col.onRank r.col).nx k = (PV.col.onRank r.col).lc k ∧ 0 ≤ (PV.col.onRank r.col).lc k ∧
    (PV.col.onRank r.col).lc k < (PV.col.onRank r.col).dist.localNrTiles ∧ (PV.col.onRank r.col).gn ((PV.col.onRank r.col).lc k) = k := by
  have hlt : ((k : Nat) : Int) < (PV.col.onRank r.col).dist.nrTiles := by
    have := (hc.lt_nt k).2 (by omega)
    rw [hc.nt]; omega
  have a := hc.plain.lc_bounds (t := (k : Int)) (by omega) hlt ho
  have e := hc.plain.gl_lc (t := (k : Int)) (by omega) ho
  refine ⟨(hc.plain.lc_nx (by omega) ho).symm, a.1, a.2, ?_⟩
  have := hc.gn_cast a.1
  omega

/-- The tiles of the panel V. -/
theorem setV_win (ho : PV.col.dist.rank_global_tile k = r.col) {s : DBtSt K} (hv : WinAt PV n mb n mb r V s.v) {i : Int}
    (hi : i ∈ View.tiles (PV.row.onRank r.row).dist ((k * mb + b : Nat) : Int)) :
    ∃ d, setV n mb b (PV.on r) k i s = some { s with pV := set1 s.pV i (some d) } ∧
      IsWin d (fun x c => storedRefl b V x (k * mb + c)) (pieceOf mb n (k * mb + b) ((PV.row.onRank r.row).gn i)).1 0
        (pieceOf mb n (k * mb + b) ((PV.row.onRank r.row).gn i)).2 (min mb (n - b - 1 - k * mb)) := by
  have hsz := vSize_eq hr hk hi
  have hmem := hi
  rw [hr.mem_view] at hi
  obtain ⟨o1, o2, o3, o4⟩ := own_col hr hc hk ho
  have hw := hv i ((PV.col.onRank r.col).lc k) hi.1 hi.2.1 o2 o3
  rw [o4] at hw
  have hmb := hr.nb_pos
  have hglt := hr.gn_lt hi.1 hi.2.1
  have hgc := hr.gn_cast hi.1
  generalize hg : (PV.row.onRank r.row).gn i = g at *
  have hpm : pieceOf mb n (k * mb + b) g ∈ pieces mb n (k * mb + b) := by
    rw [pieces_eq]
    exact List.mem_map.2 ⟨g, mem_upto.2 ⟨hi.2.2, (hr.lt_nt g).2 hglt⟩, rfl⟩
  have hpos : 0 < min mb (n - b - 1 - k * mb) := by omega
  have hbt := btTileV_win hmb rfl hpos V hpm
  have hdm := Nat.div_add_mod (k * mb + b) mb
  have hml := Nat.mod_lt (k * mb + b) hmb
  have hdiv : (pieceOf mb n (k * mb + b) g).1 / mb = g := by
    unfold pieceOf
    dsimp only
    rw [Nat.mul_comm, Nat.mul_add_div hmb, Nat.div_eq_of_lt (by split <;> omega), Nat.add_zero]
  have hrows : (if g = (k * mb + b) / mb then (k * mb + b) % mb else 0) + (pieceOf mb n (k * mb + b) g).2 = min mb (n - g * mb) := by
    unfold pieceOf
    dsimp only
    split
    · rename_i h
      subst h
      rw [Nat.mul_comm mb] at hdm
      omega
    · omega
  have hjd : max (0 : Int) ((PV.on r).row.global_tile_from_local_tile i * mb - off mb b k) = ((g * mb - (k * mb + b) : Nat) : Int) := by
    have : (PV.on r).row.global_tile_from_local_tile i = (g : Int) := hgc.symm
    rw [this, off_eq]
    have : (g : Int) * (mb : Int) = ((g * mb : Nat) : Int) := by push_cast; rfl
    rw [this]
    omega
  have hcut : (View.panelCut (PV.on r).row (off mb b k) i).toNat = if g = (k * mb + b) / mb then (k * mb + b) % mb else 0 := by
    rw [off_eq]
    have : (PV.on r).row = (PV.row.onRank r.row).dist := rfl
    rw [this, hr.panelCut hi.1, hg]
    omega
  have hidx : (⟨i, (PV.on r).col.next_local_tile_from_global_tile k⟩ : Coord2) = ⟨i, (PV.col.onRank r.col).lc k⟩ :=
    congrArg (fun z => (⟨i, z⟩ : Coord2)) o1
  unfold setV
  dsimp only
  rw [hjd, hcut, hsz, hidx, nr_eq hk]
  dsimp only
  have hmin : min (min mb (n - b - 1 - k * mb)) (s.v ⟨i, (PV.col.onRank r.col).lc k⟩).cols = min mb (n - b - 1 - k * mb) := by
    rw [hw.2.1]; omega
  rw [hmin]
  obtain ⟨d, s1, s2⟩ := Blk.sub_win (r0 := if g = (k * mb + b) / mb then (k * mb + b) % mb else 0) (c0 := 0)
    (h := (pieceOf mb n (k * mb + b) g).2) (w := min mb (n - b - 1 - k * mb)) hw (by omega) (by omega)
  rw [s1]
  have hp1 : g * mb + (if g = (k * mb + b) / mb then (k * mb + b) % mb else 0) = (pieceOf mb n (k * mb + b) g).1 := rfl
  rw [hp1, Nat.add_zero] at s2
  unfold btTileV at hbt
  dsimp only at hbt
  rw [hdiv] at hbt
  have hwr : ∀ d : Blk K, d.rows = (pieceOf mb n (k * mb + b) g).2 → d.cols = min mb (n - b - 1 - k * mb) →
      DBtSt.rV.write ((pieceOf mb n (k * mb + b) g).2, min mb (n - b - 1 - k * mb)) i d s = some { s with pV := set1 s.pV i (some d) } := by
    intro d e1 e2
    unfold ERef.write
    rw [if_pos ⟨e1, e2⟩]
    rfl
  by_cases c1 : g * mb - (k * mb + b) < min mb (n - b - 1 - k * mb)
  · rw [if_pos c1] at hbt
    rw [if_pos (by exact_mod_cast c1), Option.bind_some, Int.toNat_natCast]
    refine ⟨_, hwr _ s2.1 s2.2.1, hbt.of_eq s2.1 s2.2.1 fun x hx c hc => ?_⟩
    simp only [lasetHH, getB]
    rw [s2.2.2 x hx c hc]
  · rw [if_neg c1] at hbt
    rw [if_neg (by exact_mod_cast c1)]
    by_cases c2 : g * mb - (k * mb + b) < mb
    · rw [if_pos c2] at hbt
      rw [if_pos (by exact_mod_cast c2), Option.bind_some]
      refine ⟨_, hwr _ s2.1 s2.2.1, hbt.of_eq s2.1 s2.2.1 fun x hx c hc => ?_⟩
      simp only [getB]
      rw [s2.2.2 x hx c hc]
    · rw [if_neg c2] at hbt
      rw [if_neg (by exact_mod_cast c2)]
      have e1 := hbt.1
      have e2 := hbt.2.1
      simp only [getB] at e1 e2
      refine ⟨_, hwr _ (hw.1.trans e1) (hw.2.1.trans e2), hbt.of_eq (hw.1.trans e1) (hw.2.1.trans e2) fun x hx c hc => ?_⟩
      simp only [getB]
      rw [hw.2.2 x (by omega) c (by omega)]

/-- Inner products of the local rows of the panel. -/
def gramAt (p : Params) (mb n off : Nat) (VF : Elems K) (i c : Nat) : K :=
  ∑ t ∈ (View.tiles p.dist (off : Int)).toFinset, ∑ x ∈ Finset.range (pieceOf mb n off (p.gn t)).2,
    star (VF ((pieceOf mb n off (p.gn t)).1 + x) i) * VF ((pieceOf mb n off (p.gn t)).1 + x) c

/-- The local part of the T factor. -/
theorem tLocal_win {avail : Nat} (ha : 0 < avail) (junk : Int → Blk K) {dt : Dist1} (ho : PV.col.dist.rank_global_tile k = r.col) {s : DBtSt K}
    (ht : TausAt PV.col n mb b r.col taus dt s.tau) {VF : Elems K} {vb : Int → Blk K}
    (hv : ∀ i ∈ View.tiles (PV.row.onRank r.row).dist ((k * mb + b : Nat) : Int), s.pV i = some (vb i) ∧
      IsWin (vb i) VF (pieceOf mb n (k * mb + b) ((PV.row.onRank r.row).gn i)).1 0
        (pieceOf mb n (k * mb + b) ((PV.row.onRank r.row).gn i)).2 (min mb (n - b - 1 - k * mb))) :
    ∃ f : Nat → Nat → K, tLocal n mb b avail junk (PV.on r) dt k s =
        some { s with pT := set1 s.pT ((PV.col.onRank r.col).lc k) (some ⟨min mb (n - b - 1 - k * mb), min mb (n - b - 1 - k * mb), f⟩) } ∧
      (∀ c < min mb (n - b - 1 - k * mb), ∀ i < c, f i c = -(taus (k * mb + c)) * gramAt (PV.row.onRank r.row) mb n (k * mb + b) VF i c) ∧
      ∀ c < min mb (n - b - 1 - k * mb), ∀ i, c < i → f i c = 0 := by
  have hmb := hr.nb_pos
  obtain ⟨⟨t1, _⟩, t2⟩ := ht k hk ho
  have hread : (View.tiles (PV.row.onRank r.row).dist ((k * mb + b : Nat) : Int)).mapM (fun i => DBtSt.rV.read i s) =
      some ((View.tiles (PV.row.onRank r.row).dist ((k * mb + b : Nat) : Int)).map vb) :=
    mapM_some _ fun i hi => (hv i hi).1
  have hgram : ∀ i < min mb (n - b - 1 - k * mb), ∀ c < min mb (n - b - 1 - k * mb),
      gram ((View.tiles (PV.row.onRank r.row).dist ((k * mb + b : Nat) : Int)).map vb) i c = gramAt (PV.row.onRank r.row) mb n (k * mb + b) VF i c := by
    intro i hi c hc
    unfold gram gramAt
    rw [List.map_map, ← List.sum_toFinset _ (view_nodup _ _)]
    refine Finset.sum_congr rfl fun t ht => ?_
    rw [List.mem_toFinset] at ht
    have hw := (hv t ht).2
    simp only [Function.comp]
    rw [hw.1]
    refine Finset.sum_congr rfl fun x hx => ?_
    rw [Finset.mem_range] at hx
    rw [hw.2.2 x hx i hi, hw.2.2 x hx c hc, Nat.zero_add, Nat.zero_add]
  unfold tLocal
  rw [off_eq]
  have e0 : View.tiles (PV.on r).row ((k * mb + b : Nat) : Int) = View.tiles (PV.row.onRank r.row).dist ((k * mb + b : Nat) : Int) := rfl
  rw [e0, hread, Option.bind_some, nr_eq hk]
  have hwr : ∀ f : Nat → Nat → K, DBtSt.rT.write (min mb (n - b - 1 - k * mb), min mb (n - b - 1 - k * mb)) (tIdx (PV.on r) k)
      (⟨min mb (n - b - 1 - k * mb), min mb (n - b - 1 - k * mb), f⟩ : Blk K) s =
        some { s with pT := set1 s.pT ((PV.col.onRank r.col).lc k) (some ⟨min mb (n - b - 1 - k * mb), min mb (n - b - 1 - k * mb), f⟩) } := by
    intro f
    unfold ERef.write
    rw [if_pos ⟨rfl, rfl⟩]
    rfl
  by_cases hne : (View.tiles (PV.row.onRank r.row).dist ((k * mb + b : Nat) : Int)) = []
  · refine ⟨fun _ _ => 0, ?_, ?_, fun _ _ _ _ => rfl⟩
    · rw [hne]
      unfold stepGemv
      rw [if_pos (by rfl), Option.bind_some]
      exact hwr _
    · intro c _ i _
      unfold gramAt
      rw [hne]
      simp
  · obtain ⟨f, f1, f2, f3⟩ := stepGemv_spec (taus := s.tau (dt.local_tile_from_global_tile k))
      (t := Blk.zero (min mb (n - b - 1 - k * mb)) (min mb (n - b - 1 - k * mb)))
      (ws := (List.range (avail - 1)).map fun w : Nat => (⟨(mb : Int).toNat, min mb (n - b - 1 - k * mb), (junk w).e⟩ : Blk K)) ha
      (tiles := (View.tiles (PV.row.onRank r.row).dist ((k * mb + b : Nat) : Int)).map vb) (by simpa using hne) rfl t1 (by
        intro v hv'
        obtain ⟨i, hi, rfl⟩ := List.mem_map.1 hv'
        exact (hv i hi).2.2.1) (by simp) (by
        intro w hw
        obtain ⟨_, _, rfl⟩ := List.mem_map.1 hw
        simp only [Blk.zero]
        omega)
    refine ⟨f, ?_, fun c hc' i hi => ?_, f3⟩
    · rw [f1, Option.bind_some]
      exact hwr f
    · have hc'' : c < min mb (n - b - 1 - k * mb) := hc'
      rw [f2 c hc' i hi, t2 c hc', hgram i (by omega) c hc'']

omit hr hc hk in
/-- Only the taus of the reflectors matter. -/
theorem copyDiagTrmv_congr {u v t : Blk K} (h : ∀ x < t.cols, u.e x 0 = v.e x 0) : copyDiagTrmv u t = copyDiagTrmv v t := by
  unfold copyDiagTrmv setDiag
  congr 2
  funext i c
  by_cases hc : i = c ∧ c < t.cols
  · rw [if_pos hc, if_pos hc, h c hc.2]
  · rw [if_neg hc, if_neg hc]

/-- The taus of the block. -/
def tausBlk (mb n b k : Nat) (taus : Nat → K) : Blk K := ⟨min mb (n - b - 1 - k * mb), 1, fun x _ => taus (k * mb + x)⟩

theorem tFinish_win {dt : Dist1} (ho : PV.col.dist.rank_global_tile k = r.col) {s : DBtSt K}
    (ht : TausAt PV.col n mb b r.col taus dt s.tau) {t : Blk K} (hp : s.pT ((PV.col.onRank r.col).lc k) = some t)
    {F : Nat → Nat → K} (htc : t.cols = min mb (n - b - 1 - k * mb))
    (hF : copyDiagTrmv (tausBlk mb n b k taus) t = ⟨min mb (n - b - 1 - k * mb), min mb (n - b - 1 - k * mb), F⟩) :
    tFinish n mb b (PV.on r) dt k s =
        some { s with pT := set1 s.pT ((PV.col.onRank r.col).lc k) (some ⟨min mb (n - b - 1 - k * mb), min mb (n - b - 1 - k * mb), F⟩) } := by
  obtain ⟨_, t2⟩ := ht k hk ho
  unfold tFinish
  have : DBtSt.rT.read (tIdx (PV.on r) k) s = some t := hp
  rw [this, Option.bind_some, copyDiagTrmv_congr (v := tausBlk mb n b k taus) (by rw [htc]; exact t2), hF, nr_eq hk]
  unfold ERef.write
  rw [if_pos ⟨rfl, rfl⟩]
  rfl

/-- The tiles of the panel W. -/
theorem setW_win (junk : Int → Blk K) {s : DBtSt K} {F : Nat → Nat → K}
    (hT : s.pT ((PV.col.onRank r.col).lc k) = some ⟨min mb (n - b - 1 - k * mb), min mb (n - b - 1 - k * mb), F⟩)
    (hF : ∀ c < min mb (n - b - 1 - k * mb), ∀ i < min mb (n - b - 1 - k * mb), c < i → F i c = 0) {VF : Elems K} {i : Int}
    (hi : i ∈ View.tiles (PV.row.onRank r.row).dist ((k * mb + b : Nat) : Int)) {v : Blk K} (hv : s.pV i = some v)
    (hvw : IsWin v VF (pieceOf mb n (k * mb + b) ((PV.row.onRank r.row).gn i)).1 0
        (pieceOf mb n (k * mb + b) ((PV.row.onRank r.row).gn i)).2 (min mb (n - b - 1 - k * mb))) :
    ∃ d, setW n mb b junk (PV.on r) k i s = some { s with pW := set1 s.pW i (some d) } ∧
      IsWin d (fun x c => ∑ l ∈ Finset.range (min mb (n - b - 1 - k * mb)), VF x l * star (F c l))
        (pieceOf mb n (k * mb + b) ((PV.row.onRank r.row).gn i)).1 0
        (pieceOf mb n (k * mb + b) ((PV.row.onRank r.row).gn i)).2 (min mb (n - b - 1 - k * mb)) := by
  have hsz := vSize_eq hr hk hi
  obtain ⟨d, d1, d2⟩ := trmm3_conj_win hF hvw (w := ⟨(pieceOf mb n (k * mb + b) ((PV.row.onRank r.row).gn i)).2, min mb (n - b - 1 - k * mb), (junk i).e⟩)
    ⟨rfl, rfl⟩
  refine ⟨d, ?_, d2⟩
  unfold setW
  have e1 : DBtSt.rT.read (tIdx (PV.on r) k) s = _ := hT
  have e2 : DBtSt.rV.read i s = _ := hv
  rw [e1, Option.bind_some, e2, Option.bind_some, hsz]
  dsimp only
  rw [d1, Option.bind_some]
  unfold ERef.write
  rw [if_pos ⟨d2.1, d2.2.1⟩]
  rfl

end

section
variable {PV : Params2} {cc : Params} {n mb nc nbc b k : Nat} {r : Coord2}
variable (hr : Ax (PV.row.onRank r.row) n mb) (hc : Ax (cc.onRank r.col) nc nbc) (hk : k * mb < n - b - 1)
include hc hk

theorem w2Size_eq {j : Int} (hj : j ∈ View.tiles (cc.onRank r.col).dist ((0 : Nat) : Int)) :
    w2Size n mb b ((⟨PV.row, cc⟩ : Params2).on r) k j =
      (min mb (n - b - 1 - k * mb), min nbc (nc - (cc.onRank r.col).gn j * nbc)) := by
  rw [hc.mem_view] at hj
  unfold w2Size
  rw [nr_eq hk]
  have e1 : ((⟨PV.row, cc⟩ : Params2).on r).col = (cc.onRank r.col).dist := rfl
  rw [e1, hc.sz hj.1 hj.2.1, Int.toNat_natCast]

include hr

omit hk in
theorem cSpec_eq {i j : Int} (hi : i ∈ View.tiles (PV.row.onRank r.row).dist ((k * mb + b : Nat) : Int))
    (hj : j ∈ View.tiles (cc.onRank r.col).dist ((0 : Nat) : Int)) :
    cSpec mb b ((⟨PV.row, cc⟩ : Params2).on r) k ⟨i, j⟩ =
      ((if (PV.row.onRank r.row).gn i = (k * mb + b) / mb then (k * mb + b) % mb else 0, 0),
       ((pieceOf mb n (k * mb + b) ((PV.row.onRank r.row).gn i)).2, min nbc (nc - (cc.onRank r.col).gn j * nbc))) := by
  rw [hr.mem_view] at hi
  rw [hc.mem_view] at hj
  unfold cSpec
  dsimp only
  have e1 : ((⟨PV.row, cc⟩ : Params2).on r).col = (cc.onRank r.col).dist := rfl
  have e2 : ((⟨PV.row, cc⟩ : Params2).on r).row = (PV.row.onRank r.row).dist := rfl
  have c1 : View.matrixCut (PV.row.onRank r.row).dist (off mb b k) (View.hasSub ((⟨PV.row, cc⟩ : Params2).on r) ⟨off mb b k, 0⟩) i =
      ((if (PV.row.onRank r.row).gn i = (k * mb + b) / mb then (k * mb + b) % mb else 0 : Nat) : Int) := by
    rw [off_eq]
    refine hr.matrixCut hi.1 fun hg _ => ?_
    have ho := hr.plain.gl_own hi.1
    rw [← hr.gn_cast hi.1, hg] at ho
    have := hr.hasTop.2 ho
    unfold View.hasSub
    dsimp only
    rw [e2, this]
    rfl
  have c2 : View.matrixCut (cc.onRank r.col).dist 0 (View.hasSub ((⟨PV.row, cc⟩ : Params2).on r) ⟨off mb b k, 0⟩) j = 0 := by
    have := hc.matrixCut (off := 0) (i := j) (has := View.hasSub ((⟨PV.row, cc⟩ : Params2).on r) ⟨off mb b k, 0⟩) hj.1 (by
      intro _ h; rw [Nat.zero_mod] at h; exact absurd rfl h)
    rw [Nat.zero_mod, ite_self] at this
    exact this
  rw [e1, e2, c1, c2, hr.sz hi.1 hi.2.1, hc.sz hj.1 hj.2.1]
  unfold pieceOf
  dsimp only
  simp only [Int.toNat_natCast, Int.sub_zero, Int.toNat_zero]
  congr 2
  omega

theorem zeroW2_win {s : DBtSt K} {j : Int} (hj : j ∈ View.tiles (cc.onRank r.col).dist ((0 : Nat) : Int)) :
    zeroW2 n mb b ((⟨PV.row, cc⟩ : Params2).on r) k j s = some { s with pW2 := set1 s.pW2 j (some
      (Blk.zero (min mb (n - b - 1 - k * mb)) (min nbc (nc - (cc.onRank r.col).gn j * nbc)))) } := by
  unfold zeroW2
  rw [w2Size_eq hc hk hj]
  unfold ERef.write
  rw [if_pos ⟨rfl, rfl⟩]
  rfl

/-- Where the piece of a tile is in the tile. -/
theorem piece_in {i : Int} (hi : i ∈ View.tiles (PV.row.onRank r.row).dist ((k * mb + b : Nat) : Int)) :
    (if (PV.row.onRank r.row).gn i = (k * mb + b) / mb then (k * mb + b) % mb else 0) + (pieceOf mb n (k * mb + b) ((PV.row.onRank r.row).gn i)).2 =
      min mb (n - (PV.row.onRank r.row).gn i * mb) ∧
    (PV.row.onRank r.row).gn i * mb + (if (PV.row.onRank r.row).gn i = (k * mb + b) / mb then (k * mb + b) % mb else 0) =
      (pieceOf mb n (k * mb + b) ((PV.row.onRank r.row).gn i)).1 := by
  rw [hr.mem_view] at hi
  have hglt := hr.gn_lt hi.1 hi.2.1
  have hdm := Nat.div_add_mod (k * mb + b) mb
  have hml := Nat.mod_lt (k * mb + b) hr.nb_pos
  generalize (PV.row.onRank r.row).gn i = g at *
  refine ⟨?_, rfl⟩
  unfold pieceOf
  dsimp only
  split
  · rename_i h
    subst h
    rw [Nat.mul_comm mb] at hdm
    omega
  · omega

theorem addW2_win {s : DBtSt K} {C W Z : Elems K} (hcw : WinAt ⟨PV.row, cc⟩ n mb nc nbc r C s.c) {i j : Int}
    (hi : i ∈ View.tiles (PV.row.onRank r.row).dist ((k * mb + b : Nat) : Int))
    (hj : j ∈ View.tiles (cc.onRank r.col).dist ((0 : Nat) : Int)) {w w2 : Blk K} (hw : s.pW i = some w)
    (hww : IsWin w W (pieceOf mb n (k * mb + b) ((PV.row.onRank r.row).gn i)).1 0
        (pieceOf mb n (k * mb + b) ((PV.row.onRank r.row).gn i)).2 (min mb (n - b - 1 - k * mb)))
    (hw2 : s.pW2 j = some w2)
    (hw2w : IsWin w2 Z 0 ((cc.onRank r.col).gn j * nbc) (min mb (n - b - 1 - k * mb)) (min nbc (nc - (cc.onRank r.col).gn j * nbc))) :
    ∃ d, addW2 n mb b ((⟨PV.row, cc⟩ : Params2).on r) k ⟨i, j⟩ s = some { s with pW2 := set1 s.pW2 j (some d) } ∧
      IsWin d (fun l y => ∑ x ∈ Finset.range (pieceOf mb n (k * mb + b) ((PV.row.onRank r.row).gn i)).2,
          star (W ((pieceOf mb n (k * mb + b) ((PV.row.onRank r.row).gn i)).1 + x) l) *
            C ((pieceOf mb n (k * mb + b) ((PV.row.onRank r.row).gn i)).1 + x) y + Z l y)
        0 ((cc.onRank r.col).gn j * nbc) (min mb (n - b - 1 - k * mb)) (min nbc (nc - (cc.onRank r.col).gn j * nbc)) := by
  obtain ⟨q1, q2⟩ := piece_in hr hc hk hi
  have hs := cSpec_eq hr hc hi hj
  have hwz := w2Size_eq (PV := PV) hc hk hj
  rw [hr.mem_view] at hi
  rw [hc.mem_view] at hj
  have ht := hcw i j hi.1 hi.2.1 hj.1 hj.2.1
  obtain ⟨c, c1, c2⟩ := Blk.sub_win (r0 := if (PV.row.onRank r.row).gn i = (k * mb + b) / mb then (k * mb + b) % mb else 0) (c0 := 0)
    (h := (pieceOf mb n (k * mb + b) ((PV.row.onRank r.row).gn i)).2) (w := min nbc (nc - (cc.onRank r.col).gn j * nbc)) ht
    (Nat.le_of_eq q1) (Nat.le_of_eq (Nat.zero_add _))
  obtain ⟨d, d1, d2⟩ := gemm_win .ConjTrans .NoTrans 1 1 (a := w) (b := c) (c := w2) (conj_win hww) c2 hw2w
  refine ⟨d, ?_, d2.congr fun x _ _ y _ _ => ?_⟩
  · unfold addW2
    dsimp only
    have e1 : DBtSt.rW.read i s = _ := hw
    have e2 : DBtSt.rW2.read j s = _ := hw2
    rw [hs, e1, Option.bind_some]
    dsimp only
    rw [c1, Option.bind_some, e2, Option.bind_some, d1, Option.bind_some, hwz]
    unfold ERef.write
    rw [if_pos ⟨d2.1, d2.2.1⟩]
    rfl
  · have : (PV.row.onRank r.row).gn i * mb + (if (PV.row.onRank r.row).gn i = (k * mb + b) / mb then (k * mb + b) % mb else 0) =
      (pieceOf mb n (k * mb + b) ((PV.row.onRank r.row).gn i)).1 := q2
    rw [one_mul, one_mul, this]

theorem subC_win {s : DBtSt K} {C VF W2 : Elems K} {i j : Int}
    (hi : i ∈ View.tiles (PV.row.onRank r.row).dist ((k * mb + b : Nat) : Int))
    (hj : j ∈ View.tiles (cc.onRank r.col).dist ((0 : Nat) : Int)) {v w2 : Blk K} (hv : s.pV i = some v)
    (ht : IsWin (s.c ⟨i, j⟩) C ((PV.row.onRank r.row).gn i * mb) ((cc.onRank r.col).gn j * nbc)
      (min mb (n - (PV.row.onRank r.row).gn i * mb)) (min nbc (nc - (cc.onRank r.col).gn j * nbc)))
    (hvw : IsWin v VF (pieceOf mb n (k * mb + b) ((PV.row.onRank r.row).gn i)).1 0
        (pieceOf mb n (k * mb + b) ((PV.row.onRank r.row).gn i)).2 (min mb (n - b - 1 - k * mb)))
    (hw2 : s.pW2 j = some w2)
    (hw2w : IsWin w2 W2 0 ((cc.onRank r.col).gn j * nbc) (min mb (n - b - 1 - k * mb)) (min nbc (nc - (cc.onRank r.col).gn j * nbc))) :
    ∃ t, subC mb b ((⟨PV.row, cc⟩ : Params2).on r) k ⟨i, j⟩ s = some { s with c := set1 s.c ⟨i, j⟩ t } ∧
      IsWin t (fun x y => if (k * mb + b ≤ x ∧ x < n) ∧ (0 ≤ y ∧ y < nc) then
          C x y - ∑ l ∈ Finset.range (min mb (n - b - 1 - k * mb)), VF x l * W2 l y else C x y)
        ((PV.row.onRank r.row).gn i * mb) ((cc.onRank r.col).gn j * nbc)
        (min mb (n - (PV.row.onRank r.row).gn i * mb)) (min nbc (nc - (cc.onRank r.col).gn j * nbc)) := by
  obtain ⟨q1, q2⟩ := piece_in hr hc hk hi
  have hs := cSpec_eq hr hc hi hj
  rw [hr.mem_view] at hi
  rw [hc.mem_view] at hj
  have hglt := hr.gn_lt hi.1 hi.2.1
  have hjlt := hc.gn_lt hj.1 hj.2.1
  have hdm := Nat.div_add_mod (k * mb + b) mb
  have hml := Nat.mod_lt (k * mb + b) hr.nb_pos
  have hge : k * mb + b ≤ (pieceOf mb n (k * mb + b) ((PV.row.onRank r.row).gn i)).1 := by
    rw [← q2]
    split
    · rename_i h; rw [h, Nat.mul_comm ((k * mb + b) / mb)]; omega
    · have : (k * mb + b) / mb + 1 ≤ (PV.row.onRank r.row).gn i := by omega
      have := Nat.mul_le_mul_right mb this
      rw [Nat.add_mul, Nat.mul_comm ((k * mb + b) / mb)] at this
      omega
  obtain ⟨t, t1, t2⟩ := Blk.onSub_win (N := fun x y => if (k * mb + b ≤ x ∧ x < n) ∧ (0 ≤ y ∧ y < nc) then
          C x y - ∑ l ∈ Finset.range (min mb (n - b - 1 - k * mb)), VF x l * W2 l y else C x y)
    (r0 := if (PV.row.onRank r.row).gn i = (k * mb + b) / mb then (k * mb + b) % mb else 0) (c0 := 0)
    (h := (pieceOf mb n (k * mb + b) ((PV.row.onRank r.row).gn i)).2) (w := min nbc (nc - (cc.onRank r.col).gn j * nbc))
    (f := fun c => gemm .NoTrans .NoTrans (-1) v w2 1 c) ht
    (Nat.le_of_eq q1) (Nat.le_of_eq (Nat.zero_add _)) (by
      intro d hd
      rw [q2, Nat.add_zero] at hd ⊢
      obtain ⟨e, e1, e2⟩ := gemm_win .NoTrans .NoTrans (-1) 1 (a := v) (b := w2) (c := d) hvw hw2w hd
      refine ⟨e, e1, e2.congr fun x h1 h2 y h3 h4 => ?_⟩
      beta_reduce
      rw [if_pos ⟨⟨by omega, by omega⟩, by omega, by omega⟩]
      simp only [Nat.zero_add]
      ring) (by
      intro x y h1 h2 h3 h4 h5
      beta_reduce
      rw [if_neg]
      intro h6
      refine h5 ⟨⟨?_, ?_⟩, ?_⟩
      · rw [q2]
        by_contra hlt
        by_cases h7 : (PV.row.onRank r.row).gn i = (k * mb + b) / mb
        · rw [if_pos h7] at q2
          rw [Nat.mul_comm mb, ← h7] at hdm
          omega
        · rw [if_neg h7] at q2
          omega
      · omega
      · omega)
  refine ⟨t, ?_, t2⟩
  unfold subC
  dsimp only
  have e1 : DBtSt.rV.read i s = _ := hv
  have e2 : DBtSt.rW2.read j s = _ := hw2
  rw [hs, e1, Option.bind_some, e2, Option.bind_some]
  dsimp only
  rw [t1]
  rfl

end
end DistBt
end DLAF
