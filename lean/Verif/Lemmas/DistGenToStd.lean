import Verif.Lemmas.GenToStdOrder
/- Lemmas about the distributed transformation to standard form. -/
namespace DLAF
variable {K : Type*}

/-- Setting a tile of a panel. -/
theorem VF.setTile {V : VEnv} {a : GV K} {r : Coord2} (hV : V.OK) (hr : r ∈ V.E.G) {it : Int} {n : Nat} {dbg : Bool} {i : Int} {b : Blk K}
    (hs : 0 ≤ (a.pan r n).s) (hi : 0 ≤ i) (h1 : (a.pan r n).s ≤ (V.E.crd n r).gl i) (h2 : (V.E.crd n r).gl i < (a.pan r n).e)
    (hf : (a.pan r n).W ((V.E.crd n r).gl i) = none)
    (hb : VPanel.fits (V.E.tall n) b (a.pan r n).ax ((V.E.crd n r).dist.global_tile_size_of ((V.E.crd n r).gl i)) = true)
    (ho : V.E.own n = false) :
    VF V r (rrIdx it) ((DSt.panel n it).upd fun v => v.setTile dbg i b) a (a.setW r n ((V.E.crd n r).gl i) b) := by
  have hin := hV.inRange hr hs hi h1 h2
  unfold GV.setW
  refine VF.panel (D := ⟨(a.pan r n).ax, (a.pan r n).s, (a.pan r n).e, set1 ((a.pan r n).loc (V.E.crd n r)).f i (some b)⟩)
    (fun M hM => ?_) (VP.loc_set (hV.env.crd n hr) (d := a.pan r n) hs hin _)
  refine .one fun x hx => ?_
  obtain ⟨v', e, hv'⟩ := (hx.cur n).setTile (dbg := dbg) (hV.env.crd n hr) hs hin ((if_pos hin).trans hf) hb
  exact ⟨_, upd_some e, hx.setPanel hv' fun h => by rw [ho] at h; cases h⟩

section
variable {P : Params2} {A : Nat → PanKind} {m : Nat → Tiles K} {rest : Coord2 → Nat → VP K} {L : List (Coord2 → VP K)}

/-- Tasks on the tiles of a line, each followed by the link of the tile into a panel. -/
theorem sq_line (h : SquareDist P) {r : Coord2} (hr : r ∈ P.ranks) (n : Nat) (hn : n < L.length) {it : Int} {dbg : Bool} {b : Coord}
    (hax : (A n).axis = b) (htall : (A n).tall = isTall b) (hown : (A n).own = false) {k s e : Nat} (hL : L[n] r = noP (P.tsz k) s e) (hk : k < P.nt)
    (he : e ≤ P.nt) {x y : Tiles K} (hy : P.Fits y) {S S' : Nat × Nat → Prop} [DecidablePred S] [DecidablePred S']
    (hS : ∀ t, qx b t = k → s ≤ px b t → px b t < e → ¬ S t) (hS' : ∀ t, S' t ↔ S t ∨ (qx b t = k ∧ s ≤ px b t ∧ px b t < e))
    (ho : r.get b = (P.get b).dist.rank_global_tile k) (ops : Int → List (DSt K → Option (DSt K)))
    (hop : ∀ (i : Int) (p : Nat), 0 ≤ i → (P.at' b.orth r).gl i = p → s ≤ p → p < e → (sqEnv P A).In 0 r (tileAt b i ((P.at' b r).nx k)) →
      (sqEnv P A).In 1 r (tileAt b i ((P.at' b r).nx k)) →
      (∀ q, (sqEnv P A).g q r (tileAt b i ((P.at' b r).nx k)) = tz b p k) → ∀ (c : Tiles K) (F : Coord2 → VP K), c (tz b p k) = x (tz b p k) →
      VL (sqEnv P A) r (rrIdx it) (ops i) (GV.ofL (set1 m 0 c) rest (L.set n F)) ((GV.ofL (set1 m 0 c) rest (L.set n F)).setT 0 (tz b p k) (y (tz b p k)))) :
    VL (sqEnv P A) r (rrIdx it) ((irange ((P.at' b.orth r).nx s) ((P.at' b.orth r).nx e)).flatMap fun i =>
        ops i ++ [DSt.link (DSt.panel n it) dbg i 0 (tileAt b i ((P.at' b r).nx k))])
      (GV.ofL (set1 m 0 (mixT S x y)) rest L) (GV.ofL (set1 m 0 (mixT S' x y)) rest (L.set n fun _ => lineP P b y k s e)) := by
  classical
  have hV : (sqEnv P A).OK := h.env
  have p1 := h.plainAt b.orth hr
  have p2 := h.plainAt b hr
  have n1 : (P.at' b.orth r).dist.nrTiles = P.nt := h.nrTiles b.orth
  have n2 : (P.at' b r).dist.nrTiles = P.nt := h.nrTiles b
  have hcrd : ∀ i, ((sqEnv P A).E.crd n r).gl i = (P.at' b.orth r).gl i := fun i => by
    show (P.at' (A n).axis.orth r).gl i = _
    rw [hax]
  have e1 : (P.at' b r).gl ((P.at' b r).nx k) = k := by
    rw [← p2.lc_nx (by omega) ho.symm]
    exact p2.gl_lc (by omega) ho.symm
  have lb := p2.lc_bounds (t := (k : Int)) (by omega) (by omega) ho.symm
  rw [p2.lc_nx (by omega) ho.symm] at lb
  have hmem : ∀ i, i ∈ irange ((P.at' b.orth r).nx s) ((P.at' b.orth r).nx e) ↔ 0 ≤ i ∧ (s : Int) ≤ (P.at' b.orth r).gl i ∧ (P.at' b.orth r).gl i < e := by
    intro i
    rw [mem_irange, p1.mem_nx (by omega) (by omega)]
  let gls : List Int → List Int := fun pre => pre.map (P.at' b.orth r).gl
  let F : List Int → Coord2 → VP K := fun pre _ => ⟨P.tsz k, s, e, fun t => if t ∈ gls pre then some (y (tz b t.toNat k)) else none⟩
  let SS : List Int → Nat × Nat → Prop := fun pre t => S t ∨ (qx b t = k ∧ (px b t : Int) ∈ gls pre)
  have key := VL.list (V := sqEnv P A) (r := r) (w := rrIdx it) (irange ((P.at' b.orth r).nx s) ((P.at' b.orth r).nx e))
    (fun i => ops i ++ [DSt.link (DSt.panel n it) dbg i 0 (tileAt b i ((P.at' b r).nx k))])
    (fun pre => GV.ofL (set1 m 0 (mixT (SS pre) x y)) rest (L.set n (F pre))) (by
    intro pre i post hx
    have hi : i ∈ irange ((P.at' b.orth r).nx s) ((P.at' b.orth r).nx e) := by rw [hx]; simp
    obtain ⟨i0, i1, i2⟩ := (hmem i).1 hi
    have hpre : (P.at' b.orth r).gl i ∉ gls pre := by
      intro hc
      rw [List.mem_map] at hc
      obtain ⟨j, hj, hji⟩ := hc
      have hjx : j ∈ irange ((P.at' b.orth r).nx s) ((P.at' b.orth r).nx e) := by rw [hx]; simp [hj]
      have := p1.gl_inj ((hmem j).1 hjx).1 i0 hji
      subst this
      have hnd := irange_nodup ((P.at' b.orth r).nx s) ((P.at' b.orth r).nx e)
      rw [hx] at hnd
      exact (List.nodup_append.1 hnd).2.2 _ hj _ List.mem_cons_self rfl
    obtain ⟨p, hp⟩ : ∃ p : Nat, (P.at' b.orth r).gl i = p := ⟨_, (Int.toNat_of_nonneg (p1.gl_nonneg i0)).symm⟩
    have hlt : i < (P.at' b.orth r).dist.localNrTiles := by
      have := (p1.lt_nx i0 (s := (P.at' b.orth r).dist.nrTiles) (by omega)).2 (by omega)
      rwa [p1.nx_all] at this
    have hin : ∀ q, (sqEnv P A).In q r (tileAt b i ((P.at' b r).nx k)) := fun q => (sq_in _ _ _ _ _).2 ⟨⟨i0, hlt⟩, lb⟩
    have hg : ∀ q, (sqEnv P A).g q r (tileAt b i ((P.at' b r).nx k)) = tz b p k := fun q => by rw [sq_g, hp, e1]; rfl
    have hSp : ¬ SS pre (tz b p k) := by
      rintro (hc | hc)
      · exact hS _ (qx_tz _ _ _) (by rw [px_tz]; omega) (by rw [px_tz]; omega) hc
      · rw [px_tz, ← hp] at hc
        exact hpre hc.2
    have hS1 : ∀ t, SS (pre ++ [i]) t ↔ SS pre t ∨ t = tz b p k := by
      intro t
      show (S t ∨ (qx b t = k ∧ (px b t : Int) ∈ (pre ++ [i]).map (P.at' b.orth r).gl)) ↔ (S t ∨ (qx b t = k ∧ (px b t : Int) ∈ pre.map (P.at' b.orth r).gl)) ∨ _
      rw [List.map_append, List.mem_append, List.map_singleton, List.mem_singleton, hp, tz_eq_iff]
      constructor
      · rintro (hc | ⟨hc, hd | hd⟩)
        · exact Or.inl (Or.inl hc)
        · exact Or.inl (Or.inr ⟨hc, hd⟩)
        · exact Or.inr ⟨by omega, hc⟩
      · rintro ((hc | ⟨hc, hd⟩) | ⟨hc, hd⟩)
        · exact Or.inl hc
        · exact Or.inr ⟨hc, Or.inl hd⟩
        · exact Or.inr ⟨hd, Or.inr (by omega)⟩
    refine VL.append (b := GV.ofL (set1 m 0 (mixT (SS (pre ++ [i])) x y)) rest (L.set n (F pre)))
      ((hop i p i0 hp (by omega) (by omega) (hin 0) (hin 1) hg (mixT (SS pre) x y) (F pre) (if_neg hSp)).to ⟨fun q z hz => ?_, fun _ => rfl⟩) (VF.one ?_)
    · show set1 (set1 m 0 _) 0 (set1 (set1 m 0 _ 0) (tz b p k) _) q _ = set1 m 0 _ q _
      rw [set1_set1]
      by_cases hq : q = 0
      · subst hq
        rw [set1_same, set1_same, set1_same]
        unfold set1 mixT
        by_cases ht : (sqEnv P A).g 0 r z = tz b p k
        · rw [if_pos ht, if_pos ((hS1 _).2 (Or.inr ht)), ht]
        · rw [if_neg ht]
          refine if_congr ?_ rfl rfl
          rw [hS1]
          exact ⟨Or.inl, fun hc => hc.elim id fun hc => absurd hc ht⟩
      · rw [set1_ne _ _ hq, set1_ne _ _ hq]
    · have hpan : (GV.ofL (set1 m 0 (mixT (SS (pre ++ [i])) x y)) rest (L.set n (F pre))).pan r n = F pre r := by
        rw [GV.ofL_pan (by rw [List.length_set]; exact hn), List.getElem_set_self]
      have hval : (GV.ofL (set1 m 0 (mixT (SS (pre ++ [i])) x y)) rest (L.set n (F pre))).mat 0 ((sqEnv P A).g 0 r (tileAt b i ((P.at' b r).nx k))) = y (tz b p k) := by
        rw [hg]
        show set1 m 0 _ 0 _ = _
        rw [set1_same]
        exact if_pos ((hS1 _).2 (Or.inr rfl))
      have lk := VF.link hV hr (a := GV.ofL (set1 m 0 (mixT (SS (pre ++ [i])) x y)) rest (L.set n (F pre))) (it := it) (dbg := dbg) (n := n) (q := 0) (i := i)
        (idx := tileAt b i ((P.at' b r).nx k)) (hin 0) (by rw [hpan]; exact Int.natCast_nonneg _) i0 (by rw [hpan, hcrd]; exact i1) (by rw [hpan, hcrd]; exact i2)
        (by rw [hpan, hcrd]; exact if_neg hpre) (by
          rw [hpan, hval, hcrd]
          have hf : (sqEnv P A).E.tall n = isTall b := htall
          have hz : ((sqEnv P A).E.crd n r).dist.global_tile_size_of ((P.at' b.orth r).gl i) = P.tsz ((P.at' b.orth r).gl i) := by
            show (P.get (A n).axis.orth).dist.global_tile_size_of _ = _
            exact h.tsz _ _
          rw [hf, hz, hp]
          exact h.fits hy (ax := b) hk (t := (p : Int)) (by omega) (by omega)) hown
      refine lk.to ?_
      unfold GV.setW
      refine GV.ofL_to (by rw [List.length_set]; exact hn) (F (pre ++ [i])) (List.set_set _).symm ?_ rfl
      rw [hpan, hval, hcrd, hp]
      unfold VP.loc
      show (⟨P.tsz k, s, e, _⟩ : PanD K) = ⟨P.tsz k, s, e, _⟩
      congr 1
      funext j
      refine if_congr Iff.rfl ?_ rfl
      show set1 (fun t => if t ∈ gls pre then some (y (tz b t.toNat k)) else none) (p : Int) (some (y (tz b p k))) _ = if _ ∈ gls (pre ++ [i]) then _ else _
      unfold set1
      have hgl : ∀ t, t ∈ gls (pre ++ [i]) ↔ t ∈ gls pre ∨ t = p := by
        intro t
        show t ∈ (pre ++ [i]).map _ ↔ _
        rw [List.map_append, List.mem_append, List.map_singleton, List.mem_singleton, hp]
      by_cases hj : ((sqEnv P A).E.crd n r).gl j = (p : Int)
      · rw [if_pos hj, if_pos ((hgl _).2 (Or.inr hj)), hj]
        rfl
      · rw [if_neg hj]
        refine if_congr ?_ rfl rfl
        rw [hgl]
        exact ⟨Or.inl, fun hc => hc.elim id fun hc => absurd hc hj⟩)
  refine (key.frm ⟨fun q z hz => ?_, fun n' => ?_⟩).to ⟨fun q z hz => ?_, fun n' => ?_⟩
  · show set1 m 0 _ q _ = set1 m 0 _ q _
    by_cases hq : q = 0
    · subst hq
      rw [set1_same, set1_same]
      unfold mixT
      refine if_congr ?_ rfl rfl
      exact ⟨Or.inl, fun hc => hc.elim id fun hc => absurd hc.2 List.not_mem_nil⟩
    · rw [set1_ne _ _ hq, set1_ne _ _ hq]
  · rw [← GV.ofL_setPs hn]
    show _ = VP.loc _ (set1 ((GV.ofL _ rest L).pan r) n _ n')
    by_cases hn' : n' = n
    · subst hn'
      rw [set1_same, GV.ofL_pan hn, hL]
      show VP.loc _ (⟨_, _, _, _⟩ : VP K) = VP.loc _ (⟨_, _, _, _⟩ : VP K)
      congr 2
    · rw [set1_ne _ _ hn']
      rfl
  · show set1 m 0 _ q _ = set1 m 0 _ q _
    by_cases hq : q = 0
    · subst hq
      rw [set1_same, set1_same]
      unfold mixT
      refine if_congr ?_ rfl rfl
      rw [hS']
      obtain ⟨i, j, p, q, rfl, i0, j0, ip, jq, hp, hq, eg⟩ := sq_tile h hr b hz
      rw [eg, qx_tz, px_tz]
      refine or_congr_right (by
        rw [qx_tz, px_tz]
        refine and_congr_right fun _ => ?_
        constructor
        · intro hc
          obtain ⟨j', hj, hji⟩ := List.mem_map.1 hc
          have := (hmem j').1 hj
          omega
        · intro hc
          exact List.mem_map.2 ⟨i, (hmem i).2 ⟨i0, by omega, by omega⟩, ip⟩)
    · rw [set1_ne _ _ hq, set1_ne _ _ hq]
  · rw [← GV.ofL_setPs hn, ← GV.ofL_setPs hn]
    show VP.loc _ (set1 ((GV.ofL _ rest L).pan r) n _ n') = VP.loc _ (set1 ((GV.ofL _ rest L).pan r) n _ n')
    by_cases hn' : n' = n
    · subst hn'
      rw [set1_same, set1_same]
      unfold VP.loc lineP
      dsimp only
      congr 1
      funext j
      by_cases hj : ((sqEnv P A).E.crd n' r).nx s ≤ j ∧ j < ((sqEnv P A).E.crd n' r).nx e
      · have hj' : (P.at' b.orth r).nx s ≤ j ∧ j < (P.at' b.orth r).nx e := by
          have hc : (sqEnv P A).E.crd n' r = P.at' b.orth r := by
            show P.at' (A n').axis.orth r = _
            rw [hax]
          rw [hc] at hj
          exact hj
        rw [if_pos hj, if_pos hj, hcrd]
        exact if_pos (List.mem_map.2 ⟨j, mem_irange.2 hj', rfl⟩)
      · rw [if_neg hj, if_neg hj]
    · rw [set1_ne _ _ hn', set1_ne _ _ hn']
      rfl
end

/-- The operation of the owner of a diagonal tile. -/
theorem sq_diagOp {P : Params2} {A : Nat → PanKind} {m0 : Nat → Tiles K} {rest : Coord2 → Nat → VP K} {L : List (Coord2 → VP K)} {w : Bool} (hd : SquareDist P) {r : Coord2} (hr : r ∈ P.ranks)
    {x y : Tiles K} {k : Nat} {op : DSt K → Option (DSt K)}
    (hop : P.Owns r (k, k) → VF (sqEnv P A) r w op (GV.ofL (set1 m0 0 x) rest L) ((GV.ofL (set1 m0 0 x) rest L).setT 0 (k, k) (y (k, k))))
    (hsame : ∀ t : Nat × Nat, t.1 < P.nt → t.2 < P.nt → t ≠ (k, k) → x t = y t) :
    VL (sqEnv P A) r w (if (P.on r).row.rank_global_tile k = (P.on r).row.rank ∧ (P.on r).col.rank_global_tile k = (P.on r).col.rank then [op] else [])
      (GV.ofL (set1 m0 0 x) rest L) (GV.ofL (set1 m0 0 y) rest L) := by
  have hb : ∀ {z : Coord2}, (sqEnv P A).In 0 r z → ((sqEnv P A).g 0 r z).1 < P.nt ∧ ((sqEnv P A).g 0 r z).2 < P.nt := by
    intro z hz
    obtain ⟨i, j, p, q, -, -, -, -, -, hp, hq, e⟩ := sq_tile hd hr .Col hz
    rw [e]
    exact ⟨hp, hq⟩
  refine VL.ite (fun hc => ?_) fun hc => ?_
  · refine VL.to (VF.one (hop hc)) ?_
    refine ⟨fun n z hz => ?_, fun n => rfl⟩
    show set1 (set1 m0 0 _) 0 (set1 (set1 m0 0 _ 0) (k, k) _) n _ = set1 m0 0 y n _
    rw [set1_set1]
    by_cases hn : n = 0
    · subst hn
      rw [set1_same, set1_same, set1_same]
      unfold set1
      by_cases hkk : (sqEnv P A).g 0 r z = (k, k)
      · rw [if_pos hkk, hkk]
      · rw [if_neg hkk]
        exact hsame _ (hb hz).1 (hb hz).2 hkk
    · rw [set1_ne _ _ hn, set1_ne _ _ hn]
  · refine (VL.nil _).to (GV.ofL_mat fun n z hz => ?_)
    by_cases hn : n = 0
    · subst hn
      rw [set1_same, set1_same]
      refine hsame _ (hb hz).1 (hb hz).2 fun hkk => hc ?_
      have := sq_owns hd hr hz
      rw [hkk] at this
      exact this
    · rw [set1_ne _ _ hn, set1_ne _ _ hn]

/-- The panels. -/
def gsA (ax : Coord) (n : Nat) : PanKind :=
  if n = 0 then ⟨ax, isTall ax, true, false, false⟩ else if n = 1 then ⟨ax.orth, isTall ax, true, true, false⟩ else
  if n = 2 then ⟨ax, isTall ax, true, false, false⟩ else ⟨ax.orth, isTall ax.orth, true, true, false⟩

/-- Line `k` of the trailing update. -/
def gsMid (ax : Coord) (nt k : Nat) (m' : Tiles K) (A1 : Nat → Blk K) : Tiles K :=
  fun t => if qx ax t = k ∧ k < px ax t ∧ px ax t < nt then A1 (px ax t) else m' t

def gsS1 (ax : Coord) (k : Nat) (t : Nat × Nat) : Prop := px ax t = k ∧ qx ax t < k
def gsS2 (ax : Coord) (k : Nat) (t : Nat × Nat) : Prop := k ≤ px ax t ∧ qx ax t < k
def gsS3 (ax : Coord) (k : Nat) (t : Nat × Nat) : Prop := (k ≤ px ax t ∧ qx ax t < k) ∨ (px ax t = k ∧ qx ax t = k)
def gsS4 (ax : Coord) (nt k : Nat) (t : Nat × Nat) : Prop := gsS3 ax k t ∨ (qx ax t = k ∧ k + 1 ≤ px ax t ∧ px ax t < nt)
def gsS5 (ax : Coord) (nt k : Nat) (t : Nat × Nat) : Prop := gsS4 ax nt k t ∨ (k < qx ax t ∧ qx ax t ≤ px ax t ∧ px ax t < nt)
instance (ax : Coord) (k : Nat) : DecidablePred (gsS1 ax k) := fun t => by unfold gsS1; infer_instance
instance (ax : Coord) (k : Nat) : DecidablePred (gsS2 ax k) := fun t => by unfold gsS2; infer_instance
instance (ax : Coord) (k : Nat) : DecidablePred (gsS3 ax k) := fun t => by unfold gsS3; infer_instance
instance (ax : Coord) (nt k : Nat) : DecidablePred (gsS4 ax nt k) := fun t => by unfold gsS4; infer_instance
instance (ax : Coord) (nt k : Nat) : DecidablePred (gsS5 ax nt k) := fun t => by unfold gsS5; infer_instance

/-- Everything known in iteration `k`. -/
structure GsCtx (P : Params2) (ax : Coord) (T : GsTasks K) (k : Nat) (l m m' : Tiles K) (A1 : Nat → Blk K) : Prop where
  d : SquareDist P
  fl : P.Fits l
  fm : P.Fits m
  fA : P.Fits (gsMid ax P.nt k m' A1)
  rel : GsRel ax T P.nt l k m m' A1
  lt : k < P.nt

section steps
variable {P : Params2} {ax : Coord} {T : GsTasks K} {k : Nat} {l m m' : Tiles K} {A1 : Nat → Blk K}
  (h : GsCtx P ax T k l m m' A1) {dbg : Bool} {m0 : Nat → Tiles K} {rest : Coord2 → Nat → VP K} {x0 x1 x2 x3 x4 : Coord2 → VP K}
include h

theorem GsCtx.mid_line {p : Nat} (h1 : k < p) (h2 : p < P.nt) : gsMid ax P.nt k m' A1 (tz ax p k) = A1 p := by
  unfold gsMid
  rw [qx_tz, px_tz, if_pos ⟨rfl, h1, h2⟩]

omit h in
theorem gsMid_other {nt : Nat} {t : Nat × Nat} (ht : qx ax t = k → k < px ax t → False) : gsMid ax nt k m' A1 t = m' t :=
  if_neg fun hc => ht hc.1 hc.2.1

/-- The transposed panel with tiles of `l`. -/
def gsLT (P : Params2) (ax : Coord) (x : Tiles K) (k : Nat) (s e : Int) : VP K := ⟨P.row.tile, s, e, fun t => some (x (tz ax t.toNat k))⟩

theorem gsPrep_step {r : Coord2} (hr : r ∈ P.ranks) {s0 s1 e1 s3 e3 : Int} (hx0 : x0 r = noP P.row.tile s0 P.nt) (hx1 : x1 r = noP P.row.tile s1 e1) (hx3 : x3 r = noP P.row.tile s3 e3)
    {M : Nat → Tiles K} (hM : M 1 = l) :
    VL (sqEnv P (gsA ax)) r (rrIdx k) (gsPrep dbg ax (P.on r) k) (GV.ofL M rest [x0, x1, x2, x3, x4])
      (GV.ofL M rest [fun r => if r.get ax = (P.get ax).dist.rank_global_tile k then lineP P ax l k k P.nt else noP (P.tsz k) k P.nt,
        fun _ => noP P.row.tile k ((P.nt : Int) - 1), x2, fun _ => noP (P.tsz k) 0 k, x4]) := by
  have hV : (sqEnv P (gsA ax)).OK := h.d.env
  obtain ⟨t1, t2, t3⟩ := h.d.tsz_pos h.lt
  have hlt := h.lt
  have hn : P.col.dist.nrTiles = P.nt := h.d.nrTiles .Col
  unfold gsPrep
  rw [P.on_at, P.on_at]
  refine VL.append (VL.append (b := GV.ofL M rest [fun _ => noP P.row.tile k P.nt, fun _ => noP P.row.tile k ((P.nt : Int) - 1), x2, fun _ => noP P.row.tile 0 k, x4])
    (VL.cons (b := GV.ofL M rest [fun _ => noP P.row.tile k P.nt, x1, x2, x3, x4]) ?_
      (VL.cons (b := GV.ofL M rest [fun _ => noP P.row.tile k P.nt, fun _ => noP P.row.tile k ((P.nt : Int) - 1), x2, x3, x4]) ?_ (VF.one ?_)))
    (VL.ite (b := GV.ofL M rest [fun _ => noP (P.tsz k) k P.nt, fun _ => noP P.row.tile k ((P.nt : Int) - 1), x2, fun _ => noP (P.tsz k) 0 k, x4])
      (fun hc => VL.cons (b := GV.ofL M rest [fun _ => noP (P.tsz k) k P.nt, fun _ => noP P.row.tile k ((P.nt : Int) - 1), x2, fun _ => noP P.row.tile 0 k, x4]) ?_ (VF.one ?_)) fun hc => ?_)) ?_
  · refine (VF.setRangeStart hV hr (n := 0) (by omega) ?_ ?_).to (GV.ofL_to (n := 0) (by simp) (fun _ => noP P.row.tile k P.nt) rfl ?_ rfl)
    · show _ ≤ (x0 r).e
      rw [hx0]
      show (k : Int) ≤ (P.nt : Int)
      omega
    · show (x0 r).W = _
      rw [hx0]; rfl
    · show VP.loc _ (⟨(x0 r).ax, _, (x0 r).e, _⟩ : VP K) = _
      rw [hx0]; rfl
  · show VF _ _ _ ((DSt.panel 1 k).upd fun v => v.setRange dbg k (P.col.dist.nrTiles - 1)) _ _
    rw [hn]
    refine (VF.setRange hV hr (n := 1) (by omega) (by omega) ?_ ?_).to (GV.ofL_to (n := 1) (by simp) (fun _ => noP P.row.tile k ((P.nt : Int) - 1)) rfl ?_ rfl)
    · show _ ≤ (P.get ax.orth.orth).dist.nrTiles
      rw [h.d.nrTiles]; omega
    · show (x1 r).W = _
      rw [hx1]; rfl
    · show VP.loc _ (⟨(x1 r).ax, _, _, _⟩ : VP K) = _
      rw [hx1]; rfl
  · refine (VF.setRange hV hr (n := 3) (by omega) (by omega) ?_ ?_).to (GV.ofL_to (n := 3) (by simp) (fun _ => noP P.row.tile 0 k) rfl ?_ rfl)
    · show _ ≤ (P.get ax.orth.orth).dist.nrTiles
      rw [h.d.nrTiles]; omega
    · show (x3 r).W = _
      rw [hx3]; rfl
    · show VP.loc _ (⟨(x3 r).ax, _, _, _⟩ : VP K) = _
      rw [hx3]; rfl
  · refine (VF.setDim (n := 0) ?_ ?_ ?_).to (GV.ofL_to (n := 0) (by simp) (fun _ => noP (P.tsz k) k P.nt) rfl ?_ rfl)
    · show 0 < (P.get ax).dist.global_tile_size_of k
      rw [h.d.tsz]; exact t1
    · show (P.get ax).dist.global_tile_size_of k ≤ P.row.tile
      rw [h.d.tsz]; exact t2
    · rfl
    · show VP.loc _ (⟨(P.get ax).dist.global_tile_size_of k, _, _, _⟩ : VP K) = _
      rw [h.d.tsz]; rfl
  · refine (VF.setDim (n := 3) ?_ ?_ ?_).to (GV.ofL_to (n := 3) (by simp) (fun _ => noP (P.tsz k) 0 k) rfl ?_ rfl)
    · show 0 < (P.get ax.orth).dist.global_tile_size_of k
      rw [h.d.tsz]; exact t1
    · show (P.get ax.orth).dist.global_tile_size_of k ≤ P.row.tile
      rw [h.d.tsz]; exact t2
    · rfl
    · show VP.loc _ (⟨(P.get ax.orth).dist.global_tile_size_of k, _, _, _⟩ : VP K) = _
      rw [h.d.tsz]; rfl
  · have hc' : ¬ (k : Int) = P.col.dist.nrTiles - 1 := hc
    rw [t3 (by omega)]
    exact VL.nil _
  · have n1 : (P.at' ax.orth r).dist.nrTiles = P.nt := h.d.nrTiles ax.orth
    refine sq_link h.d hr 0 (by simp) (M := M) (q := 1) (ax := ax) (k := k) (s := k) (e := P.nt) rfl rfl rfl rfl h.lt (by omega) (by omega) (le_refl _)
      (by rw [hM]; exact h.fl) eq_comm rfl ?_ ?_
    · rw [← n1]
      exact ((h.d.plainAt ax.orth hr).nx_all).symm
    · rw [hM]; rfl

theorem gsBcast1 {M : Nat → Tiles K} :
    VStep (sqEnv P (gsA ax)) (rrIdx k) (fun r => bcastPanels dbg ax (P.on r) (((P.on r).get ax).rank_global_tile k) (DSt.panel 0 k) (DSt.panel 1 k) k (P.on r).col.nrTiles k ((P.on r).col.nrTiles - 1))
      (GV.ofL M rest [fun r => if r.get ax = (P.get ax).dist.rank_global_tile k then lineP P ax l k k P.nt else noP (P.tsz k) k P.nt, fun _ => noP P.row.tile k ((P.nt : Int) - 1), x2, x3, x4])
      (GV.ofL M rest [fun _ => lineP P ax l k k P.nt, fun _ => gsLT P ax l k k ((P.nt : Int) - 1), x2, x3, x4]) := by
  have hV : (sqEnv P (gsA ax)).OK := h.d.env
  have hlt := h.lt
  have hroot : 0 ≤ (P.get ax).dist.rank_global_tile k ∧ (P.get ax).dist.rank_global_tile k < (P.get ax).grid :=
    (h.d.plain ax).valid.wf.cyc.rank_range (t := (k : Int)) (by omega)
  obtain ⟨t1, t2, t3⟩ := h.d.tsz_pos h.lt
  have t0 := Int.le_of_lt t1
  have hn : P.col.dist.nrTiles = P.nt := h.d.nrTiles .Col
  have key := VStep.bcast2 hV (a := GV.ofL M rest [fun r => if r.get ax = (P.get ax).dist.rank_global_tile k then lineP P ax l k k P.nt else noP (P.tsz k) k P.nt, fun _ => noP P.row.tile k ((P.nt : Int) - 1), x2, x3, x4])
    (it := k) 0 1 (by omega) rfl rfl h.d.size h.d.tile (root := (P.get ax).dist.rank_global_tile k) hroot (dbg := dbg) (ax := P.tsz k) (axT := P.row.tile) (s := k) (e := P.nt) (sT := k) (eT := (P.nt : Int) - 1) t0 (by omega)
    (by omega) (le_refl _) (by omega) (by omega) (by show _ ≤ (P.get ax.orth).dist.nrTiles; rw [h.d.nrTiles]) (fun t => l (tz ax t.toNat k)) (by
      intro t h0 h1
      show VPanel.fits (isTall ax) _ _ ((P.get ax.orth).dist.global_tile_size_of t) = true
      rw [h.d.tsz]
      exact h.d.fits h.fl h.lt (by omega) (by omega)) (by
      intro t h0 h1
      show VPanel.fits (isTall ax) _ _ ((P.get ax).dist.global_tile_size_of t) = true
      rw [h.d.tsz, ← t3 (by omega)]
      exact h.d.fits h.fl h.lt (by omega) (by omega)) (by
      intro r hr
      refine ⟨?_, rfl⟩
      show (if r.get ax = (P.get ax).dist.rank_global_tile k then lineP P ax l k k P.nt else noP (P.tsz k) k P.nt) = (⟨_, _, _, if r.get ax = _ then _ else _⟩ : VP K)
      by_cases hc : r.get ax = (P.get ax).dist.rank_global_tile k
      · rw [if_pos hc, if_pos hc]; rfl
      · rw [if_neg hc, if_neg hc]; rfl) rfl rfl
  refine VStep.congr (VStep.to key fun r hr => ?_) fun r hr => ?_
  · rw [GV.ofL_setPs (by simp), GV.ofL_setPs (by simp)]
    exact .refl _
  · rw [P.on_at]
    show bcastPanels _ _ _ _ _ _ _ P.col.dist.nrTiles _ (P.col.dist.nrTiles - 1) = _
    rw [hn]
    rfl

theorem gsRow_step {r : Coord2} (hr : r ∈ P.ranks) (hx0 : x0 r = lineP P ax l k k P.nt) (hx3 : x3 r = noP (P.tsz k) 0 k) :
    VL (sqEnv P (gsA ax)) r (rrIdx k) (gsRow dbg ax T (P.on r) k) (GV.ofL (set1 m0 0 m) rest [x0, x1, x2, x3, x4])
      (GV.ofL (set1 m0 0 (mixT (gsS1 ax k) m (gsMid ax P.nt k m' A1))) rest [x0, x1, x2,
        fun r => if r.get ax.orth = (P.get ax.orth).dist.rank_global_tile k then lineP P ax.orth (gsMid ax P.nt k m' A1) k 0 k else noP (P.tsz k) 0 k, x4]) := by
  have hlt := h.lt
  have p1 := h.d.plainAt ax.orth hr
  have p2 := h.d.plainAt ax hr
  unfold gsRow
  rw [P.on_at, P.on_at]
  refine VL.ite (fun hc => ?_) fun hc => ?_
  · have ho : (P.get ax.orth).dist.rank_global_tile k = r.get ax.orth := hc
    have gk : (P.at' ax.orth r).gl ((P.at' ax.orth r).nx k) = k := by
      rw [← p1.lc_nx (by omega) ho]
      exact p1.gl_lc (by omega) ho
    have nk := p1.nx_nonneg (s := (k : Int)) (by omega)
    have key := sq_line (A := gsA ax) (m := m0) (rest := rest) (L := [x0, x1, x2, x3, x4]) h.d hr 3 (by simp) (it := k) (dbg := dbg) (b := ax.orth) rfl rfl rfl (k := k) (s := 0) (e := k) hx3 h.lt (by omega)
      (x := m) (y := gsMid ax P.nt k m' A1) h.fA (S := fun _ => False) (S' := gsS1 ax k) (fun _ _ _ _ => id) (fun t => by
        rw [qx_orth, px_orth]
        unfold gsS1
        simp) ho.symm
      (fun j => [fun s => ((DSt.panel 0 k).read dbg ((P.at' ax.orth r).nx k) s).bind fun sa => DSt.task 0 (tileAt ax ((P.at' ax.orth r).nx k) j) (T.trsmU sa.2) sa.1]) (by
        intro i p i0 ip p0 pk hin _ hg c F hc
        rw [tileAt_orth] at hin hg
        rw [tz_orth] at hc ⊢
        refine VF.one ?_
        have gk' : (P.at' (gsA ax 0).axis.orth r).gl ((P.at' ax.orth r).nx k) = k := gk
        refine sq_rd (L := [x0, x1, x2, F, x4]) (A := gsA ax) (M := set1 m0 0 c) (it := k) (dbg := dbg) (i := (P.at' ax.orth r).nx k) (ax := ax) (x := l) (k := k) (p := k) (s := k) (e := P.nt)
          h.d hr 0 (by simp) hx0 h.lt (by omega) nk gk' (le_refl _) (by omega) ?_
        show VF _ _ _ (DSt.task 0 (tileAt ax ((P.at' ax.orth r).nx k) i) (T.trsmU (l (tz ax k k)))) _ _
        refine sq_task h.d hr hin ((hg 0).trans (tz_orth _ _ _)) ?_
        rw [hc, tz_diag, gsMid_other (fun hq => by rw [qx_tz] at hq; omega)]
        exact h.rel.row p pk)
    have e0 : (P.at' ax.orth.orth r).nx ((0 : Nat) : Int) = 0 := by rw [orth_orth]; exact p2.nx_zero
    have e1 : (P.at' ax.orth.orth r).nx (k : Int) = (P.at' ax r).nx k := by rw [orth_orth]
    rw [e0, e1] at key
    simp only [tileAt_orth] at key
    refine ((key.frm (GV.ofL_mat fun n z hz => ?_)).to ⟨fun _ _ _ => rfl, fun n => ?_⟩)
    · rfl
    · rcases n with _ | _ | _ | _ | n
      · rfl
      · rfl
      · rfl
      · show VP.loc _ (lineP P ax.orth _ k ((0 : Nat) : Int) k) = VP.loc _ (if r.get ax.orth = (P.get ax.orth).dist.rank_global_tile k then _ else _)
        rw [if_pos ho.symm]
        rfl
      · rfl
  · have ho : ¬ (P.get ax.orth).dist.rank_global_tile k = r.get ax.orth := hc
    refine (VL.nil _).to ⟨fun n z hz => ?_, fun n => ?_⟩
    · show set1 m0 0 _ n _ = set1 m0 0 _ n _
      by_cases hn : n = 0
      · subst hn
        rw [set1_same, set1_same]
        obtain ⟨i, j, p, q, -, i0, j0, ip, jq, hp, hq, e⟩ := sq_tile h.d hr ax hz
        refine (if_neg ?_).symm
        rw [e]
        unfold gsS1
        rw [px_tz, qx_tz]
        rintro ⟨rfl, -⟩
        have := p1.gl_own i0
        rw [ip] at this
        exact ho this
      · rw [set1_ne _ _ hn, set1_ne _ _ hn]
    · rcases n with _ | _ | _ | _ | n
      · rfl
      · rfl
      · rfl
      · show VP.loc _ (x3 r) = VP.loc _ (if r.get ax.orth = (P.get ax.orth).dist.rank_global_tile k then _ else _)
        rw [if_neg (fun hb => ho hb.symm), hx3]
      · rfl

theorem gsBelow_step {r : Coord2} (hr : r ∈ P.ranks) (hx0 : x0 r = lineP P ax l k k P.nt) (hx3 : x3 r = lineP P ax.orth (gsMid ax P.nt k m' A1) k 0 k) :
    VL (sqEnv P (gsA ax)) r (rrIdx k) (gsBelow dbg ax T (P.on r) k) (GV.ofL (set1 m0 0 (mixT (gsS1 ax k) m (gsMid ax P.nt k m' A1))) rest [x0, x1, x2, x3, x4])
      (GV.ofL (set1 m0 0 (mixT (gsS2 ax k) m (gsMid ax P.nt k m' A1))) rest [x0, x1, x2, x3, x4]) := by
  have hlt := h.lt
  have p1 := h.d.plainAt ax.orth hr
  have p2 := h.d.plainAt ax hr
  have n1 : (P.at' ax.orth r).dist.nrTiles = P.nt := h.d.nrTiles ax.orth
  have e0 : gsBelow dbg ax T (P.on r) k =
      (tilesOf ax ((P.at' ax.orth r).nx (k + 1 : Nat)) ((P.at' ax.orth r).nx (P.nt : Nat)) ((P.at' ax r).nx (0 : Nat)) ((P.at' ax r).nx k)).map fun z => fun s =>
        ((DSt.panel 0 (k : Int)).read dbg (z.get ax.orth) s).bind fun sl => ((DSt.panel 3 (k : Int)).read dbg (z.get ax) sl.1).bind fun sa =>
          DSt.task 0 z (T.gemmU sl.2 sa.2) sa.1 := by
    unfold gsBelow tilesOf
    rw [P.on_at, P.on_at, List.map_flatMap, show (P.at' ax r).nx (0 : Nat) = 0 from p2.nx_zero, ← n1, p1.nx_all]
    refine List.flatMap_congr fun j _ => ?_
    rw [List.map_map]
    refine List.map_congr_left fun i _ => ?_
    funext s
    show _ = ((DSt.panel 0 (k : Int)).read dbg ((tileAt ax i j).get ax.orth) s).bind fun sl => ((DSt.panel 3 (k : Int)).read dbg ((tileAt ax i j).get ax) sl.1).bind fun sa =>
          DSt.task 0 (tileAt ax i j) (T.gemmU sl.2 sa.2) sa.1
    rw [tileAt_get_axis, tileAt_get_orth]
  rw [e0]
  refine sq_tasks h.d hr 0 _ _ (fun t => k < px ax t ∧ qx ax t < k) (tilesOf_nodup _ _ _ _ _) ?_ (fun t h1 h2 => ?_) (fun t => ?_) ?_
  · intro z
    rw [mem_tilesOf_nx h.d hr (n := 0) (A := gsA ax) (le_refl P.nt) (show k ≤ P.nt by omega)]
    refine and_congr_right fun hz => ?_
    obtain ⟨i, j, p, q, -, i0, j0, ip, jq, hp, hq, e⟩ := sq_tile h.d hr ax hz
    rw [e, px_tz, qx_tz]
    omega
  · unfold gsS1 at h2
    omega
  · unfold gsS1 gsS2
    omega
  · intro z hz hR c hc
    obtain ⟨i, j, p, q, rfl, i0, j0, ip, jq, hp, hq, e⟩ := sq_tile h.d hr ax hz
    rw [e] at hR hc ⊢
    obtain ⟨hR1, hR2⟩ := hR
    rw [px_tz] at hR1
    rw [qx_tz] at hR2
    have ip' : (P.at' (gsA ax 0).axis.orth r).gl i = p := ip
    have jq' : (P.at' (gsA ax 3).axis.orth r).gl j = q := by
      show (P.at' ax.orth.orth r).gl j = _
      rw [orth_orth]; exact jq
    rw [tileAt_get_axis, tileAt_get_orth]
    clear e0
    refine sq_rd (L := [x0, x1, x2, x3, x4]) (A := gsA ax) (M := set1 m0 0 c) (it := k) (dbg := dbg) (i := i) (ax := ax) (x := l) (k := k) (p := p) (s := k) (e := P.nt)
      h.d hr 0 (by simp) hx0 h.lt (by omega) i0 ip' (by omega) (by omega) ?_
    show VF _ _ _ (fun s => ((DSt.panel 3 (k : Int)).read dbg j s).bind fun sa => DSt.task 0 (tileAt ax i j) (T.gemmU (l (tz ax p k)) sa.2) sa.1) _ _
    refine sq_rd (L := [x0, x1, x2, x3, x4]) (A := gsA ax) (M := set1 m0 0 c) (it := k) (dbg := dbg) (i := j) (ax := ax.orth) (x := gsMid ax P.nt k m' A1) (k := k) (p := q) (s := 0) (e := k)
      h.d hr 3 (by simp) hx3 h.lt (by omega) j0 jq' (by omega) (by omega) ?_
    show VF _ _ _ (DSt.task 0 (tileAt ax i j) (T.gemmU (l (tz ax p k)) (gsMid ax P.nt k m' A1 (tz ax.orth q k)))) _ _
    refine sq_task h.d hr hz e ?_
    rw [hc, tz_orth, gsMid_other (fun hq => by rw [qx_tz] at hq; omega), gsMid_other (fun hq => by rw [qx_tz] at hq; omega)]
    exact h.rel.below q p hR2 hR1 hp

theorem gsDiag_step {r : Coord2} (hr : r ∈ P.ranks) (hl : m0 1 = l) {L : List (Coord2 → VP K)} {w : Bool} :
    VL (sqEnv P (gsA ax)) r w (gsDiag T (P.on r) k) (GV.ofL (set1 m0 0 (mixT (gsS2 ax k) m (gsMid ax P.nt k m' A1))) rest L)
      (GV.ofL (set1 m0 0 (mixT (gsS3 ax k) m (gsMid ax P.nt k m' A1))) rest L) := by
  have kk : px ax (k, k) = k ∧ qx ax (k, k) = k := by rw [← tz_diag ax, px_tz, qx_tz]; exact ⟨rfl, rfl⟩
  refine sq_diagOp h.d hr (fun ho => ?_) ?_
  · obtain ⟨hin, hg⟩ := sq_local (A := gsA ax) (q := 1) h.d hr (t := (k, k)) h.lt h.lt ho
    obtain ⟨hin0, hg0⟩ := sq_local (A := gsA ax) (q := 0) h.d hr (t := (k, k)) h.lt h.lt ho
    refine VF.readMat (n := 1) (idx := ⟨(P.at' .Row r).lc k, (P.at' .Col r).lc k⟩) (k := fun b => DSt.task 0 ⟨(P.at' .Row r).lc k, (P.at' .Col r).lc k⟩ (fun a => T.hegst a b)) hin ?_
    refine sq_task (c := mixT (gsS2 ax k) m (gsMid ax P.nt k m' A1)) h.d hr hin0 hg0 ?_
    have e1 : (GV.ofL (set1 m0 0 (mixT (gsS2 ax k) m (gsMid ax P.nt k m' A1))) rest L).mat 1 ((sqEnv P (gsA ax)).g 1 r ⟨(P.at' .Row r).lc k, (P.at' .Col r).lc k⟩) = l (k, k) := by
      show set1 m0 0 (mixT (gsS2 ax k) m (gsMid ax P.nt k m' A1)) 1 _ = _
      rw [set1_ne _ _ (by omega), hl]
      exact congrArg l hg
    have e2 : mixT (gsS2 ax k) m (gsMid ax P.nt k m' A1) (k, k) = m (k, k) := if_neg (by unfold gsS2; omega)
    have e3 : mixT (gsS3 ax k) m (gsMid ax P.nt k m' A1) (k, k) = m' (k, k) := (if_pos (Or.inr kk)).trans (gsMid_other (by omega))
    rw [e1, e2, e3]
    exact h.rel.hegst
  · intro t _ _ hne
    unfold mixT
    refine if_congr ?_ rfl rfl
    unfold gsS2 gsS3
    have : ¬ (px ax t = k ∧ qx ax t = k) := fun hc => hne (by rw [← tz_diag ax, tz_eq_iff]; exact hc)
    omega

omit h in
theorem GV.ofL_setT {m : Nat → Tiles K} {L : List (Coord2 → VP K)} {q : Nat} {c : Tiles K} {t : Nat × Nat} {b : Blk K} :
    (GV.ofL (set1 m q c) rest L).setT q t b = GV.ofL (set1 m q (set1 c t b)) rest L := by
  unfold GV.setT GV.ofL
  dsimp only
  rw [set1_set1, set1_same]

/-- Panel 3 around the broadcast of the diagonal tile. -/
def gsD (P : Params2) (ax : Coord) (X : Tiles K) (k : Nat) (b : Bool) (r : Coord2) : VP K :=
  if r.get ax = (P.get ax).dist.rank_global_tile k then
    (if b = true ∨ r.get ax.orth = (P.get ax.orth).dist.rank_global_tile k then lineP P ax.orth X k k ((k : Int) + 1) else noP (P.tsz k) k ((k : Int) + 1))
  else noP P.row.tile 0 k

theorem gsSetDiag_step (hk : k + 1 < P.nt) {r : Coord2} (hr : r ∈ P.ranks) (ho : r.get ax = (P.get ax).dist.rank_global_tile k) (hx3 : x3 r = noP P.row.tile 0 k) {M : Nat → Tiles K}
    (hM : M 0 (k, k) = gsMid ax P.nt k m' A1 (k, k)) :
    VL (sqEnv P (gsA ax)) r (rrIdx k) (gsSetDiag dbg ax (P.on r) k) (GV.ofL M rest [x0, x1, x2, x3, x4])
      (GV.ofL M rest [x0, x1, x2, gsD P ax (gsMid ax P.nt k m' A1) k false, x4]) := by
  have hV : (sqEnv P (gsA ax)).OK := h.d.env
  obtain ⟨t1, t2, t3⟩ := h.d.tsz_pos h.lt
  have hlt := h.lt
  have p1 := h.d.plainAt ax.orth hr
  have p2 := h.d.plainAt ax hr
  have n1 : (P.at' ax.orth r).dist.nrTiles = P.nt := h.d.nrTiles ax.orth
  have n2 : (P.at' ax r).dist.nrTiles = P.nt := h.d.nrTiles ax
  unfold gsSetDiag
  rw [P.on_at, P.on_at]
  refine VL.append (b := GV.ofL M rest [x0, x1, x2, fun _ => noP P.row.tile k ((k : Int) + 1), x4]) (VF.one ?_) (VL.ite (fun hc => ?_) fun hc => ?_)
  · refine (VF.setRange hV hr (n := 3) (by omega) (by omega) ?_ ?_).to (GV.ofL_to (n := 3) (by simp) (fun _ => noP P.row.tile k ((k : Int) + 1)) rfl ?_ rfl)
    · show _ ≤ (P.get ax.orth.orth).dist.nrTiles
      rw [h.d.nrTiles]; omega
    · show (x3 r).W = _
      rw [hx3]; rfl
    · show VP.loc _ (⟨(x3 r).ax, _, _, _⟩ : VP K) = _
      rw [hx3]; rfl
  · have hc' : (P.get ax.orth).dist.rank_global_tile k = r.get ax.orth := hc
    have bp := p1.lc_bounds (t := (k : Int)) (by omega) (by omega) hc'
    have bq := p2.lc_bounds (t := (k : Int)) (by omega) (by omega) ho.symm
    have gp : (P.at' ax.orth r).gl ((P.at' ax.orth r).lc k) = k := p1.gl_lc (by omega) hc'
    have gq : (P.at' ax r).gl ((P.at' ax r).lc k) = k := p2.gl_lc (by omega) ho.symm
    have enx := p2.lc_nx (t := (k : Int)) (by omega) ho.symm
    have hcrd : ∀ i, ((sqEnv P (gsA ax)).E.crd 3 r).gl i = (P.at' ax r).gl i := fun i => by
      show (P.at' ax.orth.orth r).gl i = _
      rw [orth_orth]
    have key := VL.links hV hr (a := GV.ofL M rest [x0, x1, x2, fun _ => noP P.row.tile k ((k : Int) + 1), x4]) (n := 3) (q := 0) (it := k) (dbg := dbg) [(P.at' ax r).nx k]
      (fun _ => tileAt ax ((P.at' ax.orth r).lc k) ((P.at' ax r).lc k)) (by simp) (s := k) (e := (k : Int) + 1) rfl rfl (by omega) (by omega) rfl (by
        intro i
        rw [List.mem_singleton, hcrd, ← enx]
        constructor
        · rintro rfl
          rw [gq]
          exact ⟨bq.1, by omega, by omega⟩
        · rintro ⟨h0, h1, h2⟩
          exact p2.gl_inj h0 bq.1 (by rw [gq]; show (P.at' ax r).gl i = _; omega)) (fun t => gsMid ax P.nt k m' A1 (tz ax.orth t.toNat k)) (by
        intro i _
        exact (sq_in _ _ _ _ _).2 ⟨bp, bq⟩) (by
        intro i hi
        rw [List.mem_singleton] at hi
        rw [sq_g, gp, gq, hcrd, hi, ← enx, gq]
        show M 0 (tz ax k k) = gsMid ax P.nt k m' A1 (tz ax.orth k k)
        rw [tz_diag, tz_diag]
        exact hM) (by
        intro t h0 h1
        show VPanel.fits (isTall ax.orth) _ P.row.tile ((P.get ax.orth.orth).dist.global_tile_size_of t) = true
        rw [h.d.tsz, ← t3 hk]
        exact h.d.fits h.fA h.lt (by omega) (by omega)) rfl
    refine key.to (GV.ofL_to (n := 3) (by simp) (gsD P ax (gsMid ax P.nt k m' A1) k false) rfl ?_ rfl)
    unfold gsD
    rw [if_pos ho, if_pos (Or.inr hc'.symm), lineP, t3 hk]
    rfl
  · refine (VL.nil _).to ?_
    have hc' : ¬ (P.get ax.orth).dist.rank_global_tile k = r.get ax.orth := hc
    refine ⟨fun _ _ _ => rfl, fun n => ?_⟩
    rcases n with _ | _ | _ | _ | n
    · rfl
    · rfl
    · rfl
    · show VP.loc _ (noP P.row.tile k ((k : Int) + 1)) = VP.loc _ (gsD P ax (gsMid ax P.nt k m' A1) k false r)
      unfold gsD
      rw [if_pos ho, if_neg, t3 hk]
      rintro (hb | hb)
      · cases hb
      · exact hc' hb.symm
    · rfl

theorem gsBcastD {M : Nat → Tiles K} :
    VStep (sqEnv P (gsA ax)) (rrIdx k) (fun r => if ((P.on r).get ax).rank_global_tile k = ((P.on r).get ax).rank then
        bcastPanel dbg ax.orth (P.on r) (((P.on r).get ax.orth).rank_global_tile k) (DSt.panel 3 k) k ((k : Int) + 1) else [])
      (GV.ofL M rest [x0, x1, x2, gsD P ax (gsMid ax P.nt k m' A1) k false, x4]) (GV.ofL M rest [x0, x1, x2, gsD P ax (gsMid ax P.nt k m' A1) k true, x4]) := by
  have hV : (sqEnv P (gsA ax)).OK := h.d.env
  have hlt := h.lt
  have hroot : 0 ≤ (P.get ax.orth).dist.rank_global_tile k ∧ (P.get ax.orth).dist.rank_global_tile k < (P.get ax.orth).grid :=
    (h.d.plain ax.orth).valid.wf.cyc.rank_range (t := (k : Int)) (by omega)
  have t0 := Int.le_of_lt (h.d.tsz_pos h.lt).1
  let act : Int → Bool := fun x => decide (x = (P.get ax).dist.rank_global_tile k)
  have hact : ∀ r : Coord2, act (r.get ax.orth.orth) = true ↔ r.get ax = (P.get ax).dist.rank_global_tile k := fun r => by
    rw [orth_orth]
    exact decide_eq_true_iff
  have key := VStep.bcast hV (a := GV.ofL M rest [x0, x1, x2, gsD P ax (gsMid ax P.nt k m' A1) k false, x4]) (it := k) 3 (root := (P.get ax.orth).dist.rank_global_tile k) hroot (dbg := dbg) (ax := P.tsz k)
    (s := k) (e := (k : Int) + 1) t0 (by omega) (by omega) (by show _ ≤ (P.get ax.orth.orth).dist.nrTiles; rw [h.d.nrTiles]; omega) act (fun t => gsMid ax P.nt k m' A1 (tz ax.orth t.toNat k)) (by
      intro t h0 h1
      show VPanel.fits (isTall ax.orth) _ _ ((P.get ax.orth.orth).dist.global_tile_size_of t) = true
      rw [h.d.tsz]
      exact h.d.fits h.fA h.lt (by omega) (by omega)) (by
      intro r hr ha
      have ha' := (hact r).1 ha
      show gsD P ax (gsMid ax P.nt k m' A1) k false r = (⟨_, _, _, if r.get ax.orth = (P.get ax.orth).dist.rank_global_tile k then _ else _⟩ : VP K)
      unfold gsD
      rw [if_pos ha']
      by_cases hc : r.get ax.orth = (P.get ax.orth).dist.rank_global_tile k
      · rw [if_pos (Or.inr hc), if_pos hc]; rfl
      · rw [if_neg (fun hb => hb.elim (by decide) hc), if_neg hc]; rfl) rfl
  refine VStep.congr (VStep.to key fun r hr => ?_) fun r hr => ?_
  · rw [GV.ofL_setPs (by simp)]
    refine ⟨fun _ _ _ => rfl, fun n => ?_⟩
    rcases n with _ | _ | _ | _ | n
    · rfl
    · rfl
    · rfl
    · show VP.loc _ (if act (r.get ax.orth.orth) = true then _ else gsD P ax (gsMid ax P.nt k m' A1) k false r) = VP.loc _ (gsD P ax (gsMid ax P.nt k m' A1) k true r)
      by_cases hc : r.get ax = (P.get ax).dist.rank_global_tile k
      · rw [if_pos ((hact r).2 hc)]
        unfold gsD
        rw [if_pos hc, if_pos (Or.inl rfl)]
        rfl
      · rw [if_neg (fun hb => hc ((hact r).1 hb))]
        unfold gsD
        rw [if_neg hc, if_neg hc]
    · rfl
  · rw [P.on_at, P.on_at]
    refine if_congr ?_ rfl rfl
    show (P.get ax).dist.rank_global_tile k = r.get ax ↔ act (r.get ax.orth.orth) = true
    rw [hact]
    exact eq_comm

theorem gsLine_step (hk : k + 1 < P.nt) {r : Coord2} (hr : r ∈ P.ranks) (ho : r.get ax = (P.get ax).dist.rank_global_tile k) (hl : m0 1 = l)
    (hx1 : x1 r = gsLT P ax l k k ((P.nt : Int) - 1)) (hx2 : x2 r = noP P.row.tile ((k : Int) + 1) P.nt)
    (hx3 : x3 r = lineP P ax.orth (gsMid ax P.nt k m' A1) k k ((k : Int) + 1)) {s4 e4 : Int} (hx4 : x4 r = noP P.row.tile s4 e4) {y2 y3 y4 : Coord2 → VP K}
    (hy2 : y2 r = lineP P ax (gsMid ax P.nt k m' A1) k ((k : Int) + 1) P.nt) (hy3 : y3 r = noP P.row.tile k ((k : Int) + 1))
    (hy4 : y4 r = if (P.at' ax.orth r).nx ((k : Int) + 1) < (P.at' ax.orth r).dist.localNrTiles then lineP P ax.orth (gsMid ax P.nt k m' A1) k k ((k : Int) + 1) else x4 r) :
    VL (sqEnv P (gsA ax)) r (rrIdx k) (gsLine dbg ax T (P.on r) k) (GV.ofL (set1 m0 0 (mixT (gsS3 ax k) m (gsMid ax P.nt k m' A1))) rest [x0, x1, x2, x3, x4])
      (GV.ofL (set1 m0 0 (mixT (gsS4 ax P.nt k) m (gsMid ax P.nt k m' A1))) rest [x0, x1, y2, y3, y4]) := by
  have hV : (sqEnv P (gsA ax)).OK := h.d.env
  obtain ⟨t1, t2, t3⟩ := h.d.tsz_pos h.lt
  have hlt := h.lt
  have p1 := h.d.plainAt ax.orth hr
  have p2 := h.d.plainAt ax hr
  have n1 : (P.at' ax.orth r).dist.nrTiles = P.nt := h.d.nrTiles ax.orth
  have n2 : (P.at' ax r).dist.nrTiles = P.nt := h.d.nrTiles ax
  have gk : (P.at' ax r).gl ((P.at' ax r).nx k) = k := by
    rw [← p2.lc_nx (by omega) ho.symm]
    exact p2.gl_lc (by omega) ho.symm
  have nk := p2.nx_nonneg (s := (k : Int)) (by omega)
  have enx : (P.at' ax r).dist.local_tile_from_global_tile k = (P.at' ax r).nx k := p2.lc_nx (t := (k : Int)) (by omega) ho.symm
  have gk1 : (P.at' (gsA ax 1).axis.orth r).gl ((P.at' ax r).nx k) = k := by
    show (P.at' ax.orth.orth r).gl _ = _
    rw [orth_orth]; exact gk
  have gk3 : (P.at' (gsA ax 3).axis.orth r).gl ((P.at' ax r).nx k) = k := gk1
  have hx1' : x1 r = lineP P ax l k k ((P.nt : Int) - 1) := by rw [hx1, lineP, t3 hk]; rfl
  have hx2' : x2 r = noP (P.tsz k) ((k + 1 : Nat) : Int) (P.nt : Nat) := by rw [hx2, t3 hk]; rfl
  unfold gsLine
  rw [P.on_at, P.on_at]
  rw [enx]
  refine VL.append (b := GV.ofL (set1 m0 0 (mixT (gsS4 ax P.nt k) m (gsMid ax P.nt k m' A1))) rest [x0, x1, y2, x3, y4])
    (VL.append (b := GV.ofL (set1 m0 0 (mixT (gsS4 ax P.nt k) m (gsMid ax P.nt k m' A1))) rest [x0, x1, y2, x3, x4]) ?_ (VL.ite (fun hc => ?_) fun hc => ?_)) (VF.one ?_)
  · have key := sq_line (A := gsA ax) (m := m0) (rest := rest) (L := [x0, x1, x2, x3, x4]) h.d hr 2 (by simp) (it := k) (dbg := dbg) (b := ax) rfl rfl rfl (k := k) (s := k + 1) (e := P.nt) hx2' h.lt (le_refl _)
      (x := m) (y := gsMid ax P.nt k m' A1) h.fA (S := gsS3 ax k) (S' := gsS4 ax P.nt k) (fun t a1 a2 a3 => by unfold gsS3; omega) (fun t => Iff.rfl) ho
      (fun i => [fun s => ((DSt.panel 1 k).read dbg ((P.at' ax r).nx k) s).bind fun sa => DSt.task 0 (tileAt ax i ((P.at' ax r).nx k)) (T.trsm sa.2) sa.1,
        fun s => ((DSt.panel 3 k).read dbg ((P.at' ax r).nx k) s).bind fun sa =>
          DSt.task 0 (tileAt ax i ((P.at' ax r).nx k)) (T.hemm sa.2 (sa.1.mat 1 (tileAt ax i ((P.at' ax r).nx k)))) sa.1]) (by
        intro i p i0 ip p0 pk hin hin1 hg c F hc
        obtain ⟨x, hxa, hxb⟩ := h.rel.line1 p (by omega) pk
        refine VL.cons (b := (GV.ofL (set1 m0 0 c) rest [x0, x1, F, x3, x4]).setT 0 (tz ax p k) x) ?_ (VF.one ?_)
        · refine sq_rd (L := [x0, x1, F, x3, x4]) (A := gsA ax) (M := set1 m0 0 c) (it := k) (dbg := dbg) (i := (P.at' ax r).nx k) (ax := ax) (x := l) (k := k) (p := k) (s := k) (e := (P.nt : Int) - 1)
            h.d hr 1 (by simp) hx1' h.lt (by omega) nk gk1 (le_refl _) (by omega) ?_
          show VF _ _ _ (DSt.task 0 (tileAt ax i ((P.at' ax r).nx k)) (T.trsm (l (tz ax k k)))) _ _
          refine sq_task h.d hr hin (hg 0) ?_
          rw [hc, tz_diag]
          exact hxa
        · rw [GV.ofL_setT]
          have efin : ((GV.ofL (set1 m0 0 c) rest ([x0, x1, x2, x3, x4].set 2 F)).setT 0 (tz ax p k) (gsMid ax P.nt k m' A1 (tz ax p k))) =
              (GV.ofL (set1 m0 0 (set1 c (tz ax p k) x)) rest [x0, x1, F, x3, x4]).setT 0 (tz ax p k) (gsMid ax P.nt k m' A1 (tz ax p k)) := by
            rw [GV.ofL_setT, GV.ofL_setT, set1_set1]
            rfl
          rw [efin]
          refine sq_rd (L := [x0, x1, F, x3, x4]) (A := gsA ax) (M := set1 m0 0 (set1 c (tz ax p k) x)) (it := k) (dbg := dbg) (i := (P.at' ax r).nx k) (ax := ax.orth)
            (x := gsMid ax P.nt k m' A1) (k := k) (p := k) (s := k) (e := (k : Int) + 1)
            h.d hr 3 (by simp) hx3 h.lt (by omega) nk gk3 (le_refl _) (by omega) ?_
          refine VF.readMat (n := 1) (idx := tileAt ax i ((P.at' ax r).nx k))
            (k := fun b => DSt.task 0 (tileAt ax i ((P.at' ax r).nx k)) (T.hemm (gsMid ax P.nt k m' A1 (tz ax.orth k k)) b)) hin1 ?_
          refine sq_task h.d hr hin (hg 0) ?_
          have e1 : (GV.ofL (set1 m0 0 (set1 c (tz ax p k) x)) rest [x0, x1, F, x3, x4]).mat 1 ((sqEnv P (gsA ax)).g 1 r (tileAt ax i ((P.at' ax r).nx k))) = l (tz ax p k) := by
            show set1 m0 0 (set1 c (tz ax p k) x) 1 _ = _
            rw [set1_ne _ _ (by omega), hl, hg]
          rw [e1, set1_same, tz_diag, h.mid_line (by omega) pk, gsMid_other (by rw [← tz_diag ax, px_tz]; omega)]
          exact hxb)
    have e1 : (P.at' ax.orth r).nx (P.nt : Nat) = (P.at' ax.orth r).dist.localNrTiles := by
      rw [← n1, p1.nx_all]
    rw [e1] at key
    refine key.to ⟨fun _ _ _ => rfl, fun n => ?_⟩
    rcases n with _ | _ | _ | n
    · rfl
    · rfl
    · show VP.loc _ (lineP P ax _ k ((k + 1 : Nat) : Int) P.nt) = VP.loc _ (y2 r)
      rw [hy2]
      rfl
    · rfl
  · refine VL.cons (b := GV.ofL (set1 m0 0 (mixT (gsS4 ax P.nt k) m (gsMid ax P.nt k m' A1))) rest [x0, x1, y2, x3, fun _ => noP P.row.tile k ((k : Int) + 1)]) ?_ (VF.one ?_)
    · refine (VF.setRange hV hr (n := 4) (by omega) (by omega) ?_ ?_).to (GV.ofL_to (n := 4) (by simp) (fun _ => noP P.row.tile k ((k : Int) + 1)) rfl ?_ rfl)
      · show _ ≤ (P.get ax.orth.orth).dist.nrTiles
        rw [h.d.nrTiles]; omega
      · show (x4 r).W = _
        rw [hx4]; rfl
      · show VP.loc _ (⟨(x4 r).ax, _, _, _⟩ : VP K) = _
        rw [hx4]; rfl
    · refine sq_rd (L := [x0, x1, y2, x3, fun _ => noP P.row.tile k ((k : Int) + 1)]) (A := gsA ax) (it := k) (dbg := dbg) (i := (P.at' ax r).nx k) (ax := ax.orth)
            (x := gsMid ax P.nt k m' A1) (k := k) (p := k) (s := k) (e := (k : Int) + 1)
            h.d hr 3 (by simp) hx3 h.lt (by omega) nk gk3 (le_refl _) (by omega) ?_
      have gk4 : ((sqEnv P (gsA ax)).E.crd 4 r).gl ((P.at' ax r).nx k) = k := gk1
      have st := VF.setTile hV hr (a := GV.ofL (set1 m0 0 (mixT (gsS4 ax P.nt k) m (gsMid ax P.nt k m' A1))) rest [x0, x1, y2, x3, fun _ => noP P.row.tile k ((k : Int) + 1)])
        (it := k) (n := 4) (dbg := dbg) (i := (P.at' ax r).nx k) (b := gsMid ax P.nt k m' A1 (tz ax.orth k k)) (by show (0 : Int) ≤ (k : Int); omega) nk
        (by rw [gk4]; exact le_refl _) (by rw [gk4]; show (k : Int) < (k : Int) + 1; omega) rfl (by
          rw [gk4]
          show VPanel.fits (isTall ax.orth) _ P.row.tile ((P.get ax.orth.orth).dist.global_tile_size_of k) = true
          rw [h.d.tsz, ← t3 hk]
          exact h.d.fits h.fA (ax := ax.orth) h.lt (t := (k : Int)) (by omega) (by omega)) rfl
      refine st.to ?_
      unfold GV.setW
      refine GV.ofL_to (n := 4) (by simp) y4 rfl ?_ rfl
      rw [hy4, if_pos hc]
      show VP.loc _ (⟨P.row.tile, _, _, set1 (fun _ => none) (((sqEnv P (gsA ax)).E.crd 4 r).gl ((P.at' ax r).nx k)) _⟩ : VP K) = VP.loc _ (⟨P.tsz k, _, _, _⟩ : VP K)
      rw [gk4, t3 hk]
      unfold VP.loc
      dsimp only
      congr 1
      funext j
      have pc : Plain ((sqEnv P (gsA ax)).E.crd 4 r) := hV.env.crdP (by rfl) 4 hr
      by_cases hj : ((sqEnv P (gsA ax)).E.crd 4 r).nx (k : Int) ≤ j ∧ j < ((sqEnv P (gsA ax)).E.crd 4 r).nx ((k : Int) + 1)
      · refine (if_pos hj).trans ((if_pos hj).trans ?_).symm
        have hj2 := (pc.mem_nx (by omega) (by omega)).1 hj
        have hj3 : ((sqEnv P (gsA ax)).E.crd 4 r).gl j = k := by omega
        rw [hj3, set1_same]
        rfl
      · exact (if_neg hj).trans (if_neg hj).symm
  · refine (VL.nil _).to ⟨fun _ _ _ => rfl, fun n => ?_⟩
    rcases n with _ | _ | _ | _ | _ | n
    · rfl
    · rfl
    · rfl
    · rfl
    · show VP.loc _ (x4 r) = VP.loc _ (y4 r)
      rw [hy4, if_neg hc]
    · rfl
  · refine (VF.reset (n := 3)).to (GV.ofL_to (n := 3) (by simp) y3 rfl ?_ rfl)
    show VP.loc _ (⟨_, (x3 r).s, (x3 r).e, _⟩ : VP K) = _
    rw [hx3, hy3]; rfl

/-- Square tiles fit in panels of both kinds. -/
theorem GsCtx.fits_sq (hk : k + 1 < P.nt) {X : Tiles K} (hX : P.Fits X) (b : Bool) {t : Int} (h0 : 0 ≤ t) (h1 : t < (P.nt : Int) - 1) :
    VPanel.fits b (X (tz ax t.toNat k)) P.row.tile (P.tsz t) = true := by
  have f1 := h.d.fits hX (ax := ax) h.lt h0 (by omega)
  have tk := (h.d.tsz_pos h.lt).2.2 hk
  have tt := (h.d.tsz_pos (k := t.toNat) (by omega)).2.2 (by omega)
  rw [show ((t.toNat : Nat) : Int) = t by omega] at tt
  rw [tk, tt] at f1
  rw [tt]
  unfold VPanel.fits at f1 ⊢
  cases b <;> cases ax <;> simp [isTall] at f1 ⊢ <;> exact ⟨by omega, by omega⟩

theorem gsBcast2 (hk : k + 1 < P.nt) {M : Nat → Tiles K} :
    VStep (sqEnv P (gsA ax)) (rrIdx k) (fun r => bcastPanels dbg ax (P.on r) (((P.on r).get ax).rank_global_tile k) (DSt.panel 2 k) (DSt.panel 3 k) ((k : Int) + 1) (P.on r).col.nrTiles ((k : Int) + 1) ((P.on r).col.nrTiles - 1))
      (GV.ofL M rest [x0, x1, fun r => if r.get ax = (P.get ax).dist.rank_global_tile k then lineP P ax (gsMid ax P.nt k m' A1) k ((k : Int) + 1) P.nt else noP P.row.tile ((k : Int) + 1) P.nt,
        fun _ => noP P.row.tile ((k : Int) + 1) ((P.nt : Int) - 1), x4])
      (GV.ofL M rest [x0, x1, fun _ => lineP P ax (gsMid ax P.nt k m' A1) k ((k : Int) + 1) P.nt, fun _ => lineP P ax (gsMid ax P.nt k m' A1) k ((k : Int) + 1) ((P.nt : Int) - 1), x4]) := by
  have hV : (sqEnv P (gsA ax)).OK := h.d.env
  have hlt := h.lt
  have hroot : 0 ≤ (P.get ax).dist.rank_global_tile k ∧ (P.get ax).dist.rank_global_tile k < (P.get ax).grid :=
    (h.d.plain ax).valid.wf.cyc.rank_range (t := (k : Int)) (by omega)
  obtain ⟨t1, t2, t3⟩ := h.d.tsz_pos h.lt
  have t0 := Int.le_of_lt t1
  have hn : P.col.dist.nrTiles = P.nt := h.d.nrTiles .Col
  have key := VStep.bcast2 hV (a := GV.ofL M rest [x0, x1, fun r => if r.get ax = (P.get ax).dist.rank_global_tile k then lineP P ax (gsMid ax P.nt k m' A1) k ((k : Int) + 1) P.nt else noP P.row.tile ((k : Int) + 1) P.nt,
        fun _ => noP P.row.tile ((k : Int) + 1) ((P.nt : Int) - 1), x4])
    (it := k) 2 3 (by omega) rfl rfl h.d.size h.d.tile (root := (P.get ax).dist.rank_global_tile k) hroot (dbg := dbg) (ax := P.tsz k) (axT := P.row.tile) (s := (k : Int) + 1) (e := P.nt) (sT := (k : Int) + 1) (eT := (P.nt : Int) - 1) t0 (by omega)
    (by omega) (le_refl _) (by omega) (by omega) (by show _ ≤ (P.get ax.orth).dist.nrTiles; rw [h.d.nrTiles]) (fun t => gsMid ax P.nt k m' A1 (tz ax t.toNat k)) (by
      intro t h0 h1
      show VPanel.fits (isTall ax) _ _ ((P.get ax.orth).dist.global_tile_size_of t) = true
      rw [h.d.tsz]
      exact h.d.fits h.fA h.lt (by omega) (by omega)) (by
      intro t h0 h1
      show VPanel.fits (isTall ax.orth) _ _ ((P.get ax).dist.global_tile_size_of t) = true
      rw [h.d.tsz]
      exact h.fits_sq hk h.fA _ (by omega) h1) (by
      intro r hr
      refine ⟨?_, rfl⟩
      show (if r.get ax = (P.get ax).dist.rank_global_tile k then lineP P ax (gsMid ax P.nt k m' A1) k ((k : Int) + 1) P.nt else noP P.row.tile ((k : Int) + 1) P.nt) = (⟨_, _, _, if r.get ax = _ then _ else _⟩ : VP K)
      by_cases hc : r.get ax = (P.get ax).dist.rank_global_tile k
      · rw [if_pos hc, if_pos hc]; rfl
      · rw [if_neg hc, if_neg hc, t3 hk]; rfl) rfl rfl
  refine VStep.congr (VStep.to key fun r hr => ?_) fun r hr => ?_
  · rw [GV.ofL_setPs (by simp), GV.ofL_setPs (by simp)]
    have e1 : lineP P ax (gsMid ax P.nt k m' A1) k ((k : Int) + 1) ((P.nt : Int) - 1) = ⟨P.row.tile, (k : Int) + 1, (P.nt : Int) - 1, fun t => some (gsMid ax P.nt k m' A1 (tz ax t.toNat k))⟩ := by
      rw [lineP, t3 hk]
    rw [e1]
    exact .refl _
  · rw [P.on_at]
    show bcastPanels _ _ _ _ _ _ _ P.col.dist.nrTiles _ (P.col.dist.nrTiles - 1) = _
    rw [hn]
    rfl

theorem gsTrail_step (hk : k + 1 < P.nt) {r : Coord2} (hr : r ∈ P.ranks) (hx0 : x0 r = lineP P ax l k k P.nt) (hx1 : x1 r = lineP P ax l k k ((P.nt : Int) - 1))
    (hx2 : x2 r = lineP P ax (gsMid ax P.nt k m' A1) k ((k : Int) + 1) P.nt) (hx3 : x3 r = lineP P ax (gsMid ax P.nt k m' A1) k ((k : Int) + 1) ((P.nt : Int) - 1)) :
    VL (sqEnv P (gsA ax)) r (rrIdx k) (gsTrailing dbg ax T (P.on r) k) (GV.ofL (set1 m0 0 (mixT (gsS4 ax P.nt k) m (gsMid ax P.nt k m' A1))) rest [x0, x1, x2, x3, x4])
      (GV.ofL (set1 m0 0 (mixT (gsS5 ax P.nt k) m (gsMid ax P.nt k m' A1))) rest [x0, x1, x2, x3, x4]) := by
  have hlt := h.lt
  have p1 := h.d.plainAt ax.orth hr
  have p2 := h.d.plainAt ax hr
  have n1 : (P.at' ax.orth r).dist.nrTiles = P.nt := h.d.nrTiles ax.orth
  have n2 : (P.at' ax r).dist.nrTiles = P.nt := h.d.nrTiles ax
  have hn : P.col.dist.nrTiles = P.nt := h.d.nrTiles .Col
  let ow : Nat → Nat → Prop := fun q p => (P.get ax).dist.rank_global_tile q = r.get ax ∧ (P.get ax.orth).dist.rank_global_tile p = r.get ax.orth
  have how : ∀ q p, P.Owns r (tz ax p q) ↔ ow q p := by
    intro q p
    unfold Params2.Owns
    cases ax
    · exact Iff.rfl
    · exact and_comm
  let gm : Nat → Nat → List (DSt K → Option (DSt K)) := fun q p =>
    if T.sw then [gsGemm dbg ax T (P.on r) k 0 3 q p, gsGemm dbg ax T (P.on r) k 2 1 q p] else [gsGemm dbg ax T (P.on r) k 2 1 q p, gsGemm dbg ax T (P.on r) k 0 3 q p]
  let ops : Nat × Nat → List (DSt K → Option (DSt K)) := fun t =>
    if ow (qx ax t) (px ax t) then (if px ax t = qx ax t then [gsHer2k dbg ax T (P.on r) k (qx ax t)] else gm (qx ax t) (px ax t)) else []
  have e0 : gsTrailing dbg ax T (P.on r) k = ((upto (k + 1) P.nt).flatMap fun q => (upto q P.nt).map fun p => tz ax p q).flatMap ops := by
    have hup : ∀ n : Nat, irange ((n : Int) + 1) P.nt = (upto (n + 1) P.nt).map fun i : Nat => (i : Int) := fun n => by
      rw [show (n : Int) + 1 = ((n + 1 : Nat) : Int) from rfl, irange_upto]
    unfold gsTrailing
    have hn' : (P.on r).col.nrTiles = P.nt := hn
    rw [hn', List.flatMap_assoc, hup, List.flatMap_map]
    refine List.flatMap_congr fun q hq => ?_
    rw [mem_upto] at hq
    rw [P.on_at, P.on_at, List.flatMap_map, upto_cons hq.2, List.flatMap_cons, hup, List.flatMap_map]
    by_cases hq : (P.at' ax r).dist.rank_global_tile q = (P.at' ax r).dist.rank
    · rw [if_neg (fun hc => hc hq)]
      congr 1
      · show _ = if ow (qx ax (tz ax q q)) (px ax (tz ax q q)) then _ else _
        rw [px_tz, qx_tz, if_pos rfl]
        refine if_congr ?_ rfl rfl
        exact ⟨fun hp => ⟨hq, Eq.symm hp⟩, fun hp => Eq.symm hp.2⟩
      · refine List.flatMap_congr fun p hp => ?_
        rw [mem_upto] at hp
        show _ = if ow (qx ax (tz ax p q)) (px ax (tz ax p q)) then _ else _
        rw [px_tz, qx_tz, if_neg (show ¬ p = q by omega)]
        by_cases hp : (P.at' ax.orth r).dist.rank_global_tile p = (P.at' ax.orth r).dist.rank
        · rw [if_neg (fun hc => hc hp)]
          exact (if_pos ⟨hq, hp⟩).symm
        · rw [if_pos hp]
          exact (if_neg (fun hc => hp hc.2)).symm
    · rw [if_pos hq]
      symm
      have hno : ∀ p, ops (tz ax p q) = [] := fun p => if_neg (by rw [qx_tz]; exact fun hc => hq hc.1)
      simp [hno]
  rw [e0]
  have hmem : ∀ t, t ∈ ((upto (k + 1) P.nt).flatMap fun q => (upto q P.nt).map fun p => tz ax p q) ↔ (k < qx ax t ∧ qx ax t ≤ px ax t ∧ px ax t < P.nt) := by
    intro t
    simp only [List.mem_flatMap, List.mem_map, mem_upto]
    constructor
    · rintro ⟨q, hq, p, hp, rfl⟩
      rw [px_tz, qx_tz]
      omega
    · intro ht
      exact ⟨qx ax t, by omega, px ax t, by omega, tz_px_qx ax t⟩
  refine sq_gtasks h.d hr 0 _ ops ?_ (fun t ht => ?_) (fun t => by rw [hmem]; exact Iff.rfl) ?_ ?_
  · rw [List.nodup_flatMap]
    refine ⟨fun q _ => (upto_nodup _ _).map fun x y hxy => (tz_inj hxy).1, (upto_nodup _ _).imp ?_⟩
    intro x y hxy z h1 h2
    rw [List.mem_map] at h1 h2
    obtain ⟨a, _, rfl⟩ := h1
    obtain ⟨b, _, h⟩ := h2
    exact hxy (tz_inj h).2.symm
  · rw [hmem] at ht
    unfold gsS4 gsS3
    omega
  · intro t _ hno
    refine if_neg fun hc => hno ?_
    have := (how (qx ax t) (px ax t)).2 hc
    rwa [tz_px_qx] at this
  · intro t ht ho c hc
    rw [hmem] at ht
    obtain ⟨p, q, rfl⟩ : ∃ p q, t = tz ax p q := ⟨_, _, (tz_px_qx ax t).symm⟩
    rw [px_tz, qx_tz] at ht
    have ho' := (how q p).1 ho
    have hops : ops (tz ax p q) = if p = q then [gsHer2k dbg ax T (P.on r) k q] else gm q p := by
      show (if ow (qx ax (tz ax p q)) (px ax (tz ax p q)) then _ else _) = _
      rw [px_tz, qx_tz, if_pos ho']
    rw [hops]
    have gp : (P.at' ax.orth r).gl ((P.at' ax.orth r).lc p) = p := p1.gl_lc (by omega) ho'.2
    have gq : (P.at' ax r).gl ((P.at' ax r).lc q) = q := p2.gl_lc (by omega) ho'.1
    have bp := p1.lc_bounds (t := (p : Int)) (by omega) (by omega) ho'.2
    have bq := p2.lc_bounds (t := (q : Int)) (by omega) (by omega) ho'.1
    have hin : (sqEnv P (gsA ax)).In 0 r (tileAt ax ((P.at' ax.orth r).lc p) ((P.at' ax r).lc q)) := (sq_in _ _ _ _ _).2 ⟨bp, bq⟩
    have hg : (sqEnv P (gsA ax)).g 0 r (tileAt ax ((P.at' ax.orth r).lc p) ((P.at' ax r).lc q)) = tz ax p q := by
      rw [sq_g, gp, gq]; rfl
    have rd0 : ∀ {c : Tiles K} {f : DSt K × Blk K → Option (DSt K)} {c' : GV K}, VF (sqEnv P (gsA ax)) r (rrIdx k) (fun s => f (s, l (tz ax p k))) (GV.ofL (set1 m0 0 c) rest [x0, x1, x2, x3, x4]) c' →
        VF (sqEnv P (gsA ax)) r (rrIdx k) (fun s => ((DSt.panel 0 k).read dbg ((P.at' ax.orth r).lc p) s).bind f) (GV.ofL (set1 m0 0 c) rest [x0, x1, x2, x3, x4]) c' := by
      intro c f c' hf
      have gp' : (P.at' (gsA ax 0).axis.orth r).gl ((P.at' ax.orth r).lc p) = p := gp
      have h2 : (p : Int) < P.nt := by omega
      have h0 : (k : Int) ≤ p := by omega
      have b0 := bp.1
      clear e0 hmem hops how hin hg bq gq
      exact sq_rd (L := [x0, x1, x2, x3, x4]) (A := gsA ax) (M := set1 m0 0 c) (it := k) (dbg := dbg) (i := (P.at' ax.orth r).lc p) (ax := ax) (x := l) (k := k) (p := p) (s := k) (e := P.nt)
        h.d hr 0 (by simp) hx0 h.lt (by omega) b0 gp' h0 h2 hf
    have rd2 : ∀ {c : Tiles K} {f : DSt K × Blk K → Option (DSt K)} {c' : GV K}, VF (sqEnv P (gsA ax)) r (rrIdx k) (fun s => f (s, A1 p)) (GV.ofL (set1 m0 0 c) rest [x0, x1, x2, x3, x4]) c' →
        VF (sqEnv P (gsA ax)) r (rrIdx k) (fun s => ((DSt.panel 2 k).read dbg ((P.at' ax.orth r).lc p) s).bind f) (GV.ofL (set1 m0 0 c) rest [x0, x1, x2, x3, x4]) c' := by
      intro c f c' hf
      have gp' : (P.at' (gsA ax 2).axis.orth r).gl ((P.at' ax.orth r).lc p) = p := gp
      have h2 : (p : Int) < P.nt := by omega
      have h0 : (k : Int) + 1 ≤ p := by omega
      have b0 := bp.1
      have em := h.mid_line (p := p) (by omega) (by omega)
      clear e0 hmem hops how hin hg bq gq rd0
      rw [← em] at hf
      exact sq_rd (L := [x0, x1, x2, x3, x4]) (A := gsA ax) (M := set1 m0 0 c) (it := k) (dbg := dbg) (i := (P.at' ax.orth r).lc p) (ax := ax) (x := gsMid ax P.nt k m' A1) (k := k) (p := p) (s := (k : Int) + 1) (e := P.nt)
        h.d hr 2 (by simp) hx2 h.lt (by omega) b0 gp' h0 h2 hf
    have rd1 : q < p → ∀ {c : Tiles K} {f : DSt K × Blk K → Option (DSt K)} {c' : GV K}, VF (sqEnv P (gsA ax)) r (rrIdx k) (fun s => f (s, l (tz ax q k))) (GV.ofL (set1 m0 0 c) rest [x0, x1, x2, x3, x4]) c' →
        VF (sqEnv P (gsA ax)) r (rrIdx k) (fun s => ((DSt.panel 1 k).read dbg ((P.at' ax r).lc q) s).bind f) (GV.ofL (set1 m0 0 c) rest [x0, x1, x2, x3, x4]) c' := by
      intro hqp c f c' hf
      have gq' : (P.at' (gsA ax 1).axis.orth r).gl ((P.at' ax r).lc q) = q := by
        show (P.at' ax.orth.orth r).gl _ = _
        rw [orth_orth]; exact gq
      have h2 : (q : Int) < (P.nt : Int) - 1 := by omega
      have h0 : (k : Int) ≤ q := by omega
      have b0 := bq.1
      clear e0 hmem hops how hin hg bp gp rd0 rd2
      exact sq_rd (L := [x0, x1, x2, x3, x4]) (A := gsA ax) (M := set1 m0 0 c) (it := k) (dbg := dbg) (i := (P.at' ax r).lc q) (ax := ax) (x := l) (k := k) (p := q) (s := k) (e := (P.nt : Int) - 1)
        h.d hr 1 (by simp) hx1 h.lt (by omega) b0 gq' h0 h2 hf
    have rd3 : q < p → ∀ {c : Tiles K} {f : DSt K × Blk K → Option (DSt K)} {c' : GV K}, VF (sqEnv P (gsA ax)) r (rrIdx k) (fun s => f (s, A1 q)) (GV.ofL (set1 m0 0 c) rest [x0, x1, x2, x3, x4]) c' →
        VF (sqEnv P (gsA ax)) r (rrIdx k) (fun s => ((DSt.panel 3 k).read dbg ((P.at' ax r).lc q) s).bind f) (GV.ofL (set1 m0 0 c) rest [x0, x1, x2, x3, x4]) c' := by
      intro hqp c f c' hf
      have gq' : (P.at' (gsA ax 3).axis.orth r).gl ((P.at' ax r).lc q) = q := by
        show (P.at' ax.orth.orth r).gl _ = _
        rw [orth_orth]; exact gq
      have h2 : (q : Int) < (P.nt : Int) - 1 := by omega
      have h0 : (k : Int) + 1 ≤ q := by omega
      have b0 := bq.1
      have em := h.mid_line (p := q) (by omega) (by omega)
      clear e0 hmem hops how hin hg bp gp rd0 rd2 rd1
      rw [← em] at hf
      exact sq_rd (L := [x0, x1, x2, x3, x4]) (A := gsA ax) (M := set1 m0 0 c) (it := k) (dbg := dbg) (i := (P.at' ax r).lc q) (ax := ax) (x := gsMid ax P.nt k m' A1) (k := k) (p := q) (s := (k : Int) + 1) (e := (P.nt : Int) - 1)
        h.d hr 3 (by simp) hx3 h.lt (by omega) b0 gq' h0 h2 hf
    by_cases hpq : p = q
    · rw [if_pos hpq]
      subst hpq
      refine VF.one ?_
      show VF _ _ _ (fun s => (((DSt.panel 2 k).read dbg (((P.on r).get ax.orth).local_tile_from_global_tile p) s).bind fun sa =>
        ((DSt.panel 0 k).read dbg (((P.on r).get ax.orth).local_tile_from_global_tile p) sa.1).bind fun sl =>
        DSt.task 0 (tileAt ax (((P.on r).get ax.orth).local_tile_from_global_tile p) (((P.on r).get ax).local_tile_from_global_tile p)) (T.her2k sa.2 sl.2) sl.1)) _ _
      rw [P.on_at, P.on_at]
      refine rd2 ?_
      dsimp only
      refine rd0 ?_
      show VF _ _ _ (DSt.task 0 _ (T.her2k (A1 p) (l (tz ax p k)))) _ _
      refine sq_task h.d hr hin hg ?_
      rw [hc, tz_diag, gsMid_other (by rw [← tz_diag ax, qx_tz]; omega)]
      exact h.rel.her2k p (by omega) (by omega)
    · rw [if_neg hpq]
      have hqp : q < p := by omega
      obtain ⟨x, hx, hxx⟩ := h.rel.gemm q p (by omega) hqp ht.2.2
      have em : gsMid ax P.nt k m' A1 (tz ax p q) = m' (tz ax p q) := gsMid_other (by rw [qx_tz]; omega)
      have g21 : ∀ {c : Tiles K} {y : Blk K}, T.gemm (A1 p) (l (tz ax q k)) (c (tz ax p q)) = some y →
          VF (sqEnv P (gsA ax)) r (rrIdx k) (gsGemm dbg ax T (P.on r) k 2 1 q p) (GV.ofL (set1 m0 0 c) rest [x0, x1, x2, x3, x4]) (GV.ofL (set1 m0 0 (set1 c (tz ax p q) y)) rest [x0, x1, x2, x3, x4]) := by
        intro c y hy
        show VF _ _ _ (fun s => (((DSt.panel 2 k).read dbg (((P.on r).get ax.orth).local_tile_from_global_tile p) s).bind fun sa =>
          ((DSt.panel 1 k).read dbg (((P.on r).get ax).local_tile_from_global_tile q) sa.1).bind fun sb =>
          DSt.task 0 (tileAt ax (((P.on r).get ax.orth).local_tile_from_global_tile p) (((P.on r).get ax).local_tile_from_global_tile q)) (T.gemm sa.2 sb.2) sb.1)) _ _
        rw [P.on_at, P.on_at]
        refine rd2 ?_
        dsimp only
        refine rd1 hqp ?_
        show VF _ _ _ (DSt.task 0 _ (T.gemm (A1 p) (l (tz ax q k)))) _ _
        rw [← GV.ofL_setT]
        exact sq_task h.d hr hin hg hy
      have g03 : ∀ {c : Tiles K} {y : Blk K}, T.gemm (l (tz ax p k)) (A1 q) (c (tz ax p q)) = some y →
          VF (sqEnv P (gsA ax)) r (rrIdx k) (gsGemm dbg ax T (P.on r) k 0 3 q p) (GV.ofL (set1 m0 0 c) rest [x0, x1, x2, x3, x4]) (GV.ofL (set1 m0 0 (set1 c (tz ax p q) y)) rest [x0, x1, x2, x3, x4]) := by
        intro c y hy
        show VF _ _ _ (fun s => (((DSt.panel 0 k).read dbg (((P.on r).get ax.orth).local_tile_from_global_tile p) s).bind fun sa =>
          ((DSt.panel 3 k).read dbg (((P.on r).get ax).local_tile_from_global_tile q) sa.1).bind fun sb =>
          DSt.task 0 (tileAt ax (((P.on r).get ax.orth).local_tile_from_global_tile p) (((P.on r).get ax).local_tile_from_global_tile q)) (T.gemm sa.2 sb.2) sb.1)) _ _
        rw [P.on_at, P.on_at]
        refine rd0 ?_
        dsimp only
        refine rd3 hqp ?_
        show VF _ _ _ (DSt.task 0 _ (T.gemm (l (tz ax p k)) (A1 q))) _ _
        rw [← GV.ofL_setT]
        exact sq_task h.d hr hin hg hy
      rw [GV.ofL_setT, ← set1_set1 c (tz ax p q) x, em]
      show VL _ _ _ (if T.sw then _ else _) _ _
      unfold GsTasks.fst at hx
      unfold GsTasks.snd at hxx
      by_cases hsw : T.sw = true
      · rw [if_pos hsw] at hx hxx ⊢
        refine VL.cons (g03 (by rw [hc]; exact hx)) (VF.one (g21 (by rw [set1_same]; exact hxx)))
      · rw [if_neg hsw] at hx hxx ⊢
        refine VL.cons (g21 (by rw [hc]; exact hx)) (VF.one (g03 (by rw [set1_same]; exact hxx)))

theorem gsReset_step {r : Coord2} {M : Nat → Tiles K} {s0 e0 s1 e1 s2 e2 s3 e3 : Int} (hx0 : (x0 r).s = s0 ∧ (x0 r).e = e0) (hx1 : (x1 r).s = s1 ∧ (x1 r).e = e1)
    (hx2 : (x2 r).s = s2 ∧ (x2 r).e = e2) (hx3 : (x3 r).s = s3 ∧ (x3 r).e = e3) :
    VL (sqEnv P (gsA ax)) r (rrIdx k) (gsReset k) (GV.ofL M rest [x0, x1, x2, x3, x4])
      (GV.ofL M rest [fun _ => noP P.row.tile s0 e0, fun _ => noP P.row.tile s1 e1, fun _ => noP P.row.tile s2 e2, fun _ => noP P.row.tile s3 e3, x4]) := by
  have _ := h.lt
  unfold gsReset
  refine VL.cons (b := GV.ofL M rest [x0, x1, fun _ => noP P.row.tile s2 e2, x3, x4]) ?_
    (VL.cons (b := GV.ofL M rest [x0, x1, fun _ => noP P.row.tile s2 e2, fun _ => noP P.row.tile s3 e3, x4]) ?_
    (VL.cons (b := GV.ofL M rest [fun _ => noP P.row.tile s0 e0, x1, fun _ => noP P.row.tile s2 e2, fun _ => noP P.row.tile s3 e3, x4]) ?_ (VF.one ?_)))
  · refine (VF.reset (n := 2)).to (GV.ofL_to (n := 2) (by simp) (fun _ => noP P.row.tile s2 e2) rfl ?_ rfl)
    show VP.loc _ (⟨_, (x2 r).s, (x2 r).e, _⟩ : VP K) = _
    rw [hx2.1, hx2.2]; rfl
  · refine (VF.reset (n := 3)).to (GV.ofL_to (n := 3) (by simp) (fun _ => noP P.row.tile s3 e3) rfl ?_ rfl)
    show VP.loc _ (⟨_, (x3 r).s, (x3 r).e, _⟩ : VP K) = _
    rw [hx3.1, hx3.2]; rfl
  · refine (VF.reset (n := 0)).to (GV.ofL_to (n := 0) (by simp) (fun _ => noP P.row.tile s0 e0) rfl ?_ rfl)
    show VP.loc _ (⟨_, (x0 r).s, (x0 r).e, _⟩ : VP K) = _
    rw [hx0.1, hx0.2]; rfl
  · refine (VF.reset (n := 1)).to (GV.ofL_to (n := 1) (by simp) (fun _ => noP P.row.tile s1 e1) rfl ?_ rfl)
    show VP.loc _ (⟨_, (x1 r).s, (x1 r).e, _⟩ : VP K) = _
    rw [hx1.1, hx1.2]; rfl

/-- The state of panel 4. -/
def gsP4 (P : Params2) (ax : Coord) (k : Nat) (v w : VP K) (r : Coord2) : VP K :=
  if r.get ax = (P.get ax).dist.rank_global_tile k ∧ (P.at' ax.orth r).nx ((k : Int) + 1) < (P.at' ax.orth r).dist.localNrTiles then v else w

theorem gsEnd_step (hk : k + 1 < P.nt) {r : Coord2} (hr : r ∈ P.ranks) (hl : m0 1 = l) {s4 e4 : Int}
    (hx4 : x4 r = gsP4 P ax k (lineP P ax.orth (gsMid ax P.nt k m' A1) k k ((k : Int) + 1)) (noP P.row.tile s4 e4) r) {y4 : Coord2 → VP K}
    (hy4 : y4 r = gsP4 P ax k (noP P.row.tile k ((k : Int) + 1)) (noP P.row.tile s4 e4) r) :
    VL (sqEnv P (gsA ax)) r (rrIdx k) (gsEnd dbg ax T (P.on r) k) (GV.ofL (set1 m0 0 (mixT (gsS5 ax P.nt k) m (gsMid ax P.nt k m' A1))) rest [x0, x1, x2, x3, x4])
      (GV.ofL (set1 m0 0 m') rest [x0, x1, x2, x3, y4]) := by
  have hlt := h.lt
  have p1 := h.d.plainAt ax.orth hr
  have p2 := h.d.plainAt ax hr
  have n1 : (P.at' ax.orth r).dist.nrTiles = P.nt := h.d.nrTiles ax.orth
  have n2 : (P.at' ax r).dist.nrTiles = P.nt := h.d.nrTiles ax
  have hmix : GV.Same (sqEnv P (gsA ax)) r (GV.ofL (set1 m0 0 (mixT (gsS5 ax P.nt k) m (gsMid ax P.nt k m' A1))) rest [x0, x1, x2, x3, x4])
      (GV.ofL (set1 m0 0 (mixT (fun _ => False) (gsMid ax P.nt k m' A1) m')) rest [x0, x1, x2, x3, x4]) := by
    refine GV.ofL_mat fun n z hz => ?_
    by_cases hn : n = 0
    · subst hn
      rw [set1_same, set1_same]
      unfold mixT
      rw [if_neg id]
      by_cases hc : gsS5 ax P.nt k ((sqEnv P (gsA ax)).g 0 r z)
      · rw [if_pos hc]
      · rw [if_neg hc, gsMid_other (by unfold gsS5 gsS4 gsS3 at hc; obtain ⟨i, j, p, q, -, -, -, -, -, hp, hq, e⟩ := sq_tile h.d hr ax hz; rw [e] at hc ⊢; rw [px_tz, qx_tz] at hc ⊢; omega)]
        refine (h.rel.other _ ?_).symm
        unfold gsS5 gsS4 gsS3 at hc
        omega
    · rw [set1_ne _ _ hn, set1_ne _ _ hn]
  unfold gsEnd
  rw [P.on_at, P.on_at]
  refine VL.ite (fun hc => ?_) fun hc => ?_
  · have ho : (P.get ax).dist.rank_global_tile k = r.get ax := hc
    have enx : (P.at' ax r).dist.local_tile_from_global_tile k = (P.at' ax r).nx k := p2.lc_nx (t := (k : Int)) (by omega) ho
    have gk : (P.at' ax r).gl ((P.at' ax r).nx k) = k := by
      rw [← p2.lc_nx (by omega) ho]
      exact p2.gl_lc (by omega) ho
    have nk := p2.nx_nonneg (s := (k : Int)) (by omega)
    have gk4 : (P.at' (gsA ax 4).axis.orth r).gl ((P.at' ax r).nx k) = k := by
      show (P.at' ax.orth.orth r).gl _ = _
      rw [orth_orth]; exact gk
    rw [enx]
    refine VL.append (b := GV.ofL (set1 m0 0 m') rest [x0, x1, x2, x3, x4]) ?_ (VF.one ?_)
    · have e0 : ((irange ((P.at' ax.orth r).dist.next_local_tile_from_global_tile ((k : Int) + 1)) (P.at' ax.orth r).dist.localNrTiles).map fun i => fun s =>
          ((DSt.panel 4 (k : Int)).read dbg ((P.at' ax r).dist.next_local_tile_from_global_tile k) s).bind fun sa =>
            DSt.task 0 (tileAt ax i ((P.at' ax r).nx k)) (T.hemm sa.2 (sa.1.mat 1 (tileAt ax i ((P.at' ax r).nx k)))) sa.1) =
          (tilesOf ax ((P.at' ax.orth r).nx (k + 1 : Nat)) ((P.at' ax.orth r).nx (P.nt : Nat)) ((P.at' ax r).nx k) ((P.at' ax r).nx (k + 1 : Nat))).map fun z => fun s =>
            ((DSt.panel 4 (k : Int)).read dbg ((P.at' ax r).nx k) s).bind fun sa => DSt.task 0 z (T.hemm sa.2 (sa.1.mat 1 z)) sa.1 := by
        rw [← tilesOf_line h.d hr (own := True) (by simp [ho]), if_pos trivial, List.map_map, ← n1, p1.nx_all]
        rfl
      rw [e0]
      refine ((sq_tasks h.d hr 0 _ _ (S := fun _ => False) (S' := fun t => False ∨ (qx ax t = k ∧ k < px ax t)) (x := gsMid ax P.nt k m' A1) (y := m') (fun t => qx ax t = k ∧ k < px ax t) (tilesOf_nodup _ _ _ _ _) ?_ (fun t _ h2 => h2) (fun t => Iff.rfl) ?_).frm hmix).to ?_
      · intro z
        rw [mem_tilesOf_nx h.d hr (n := 0) (A := gsA ax) (le_refl P.nt) (show k + 1 ≤ P.nt by omega)]
        refine and_congr_right fun hz => ?_
        obtain ⟨i, j, p, q, -, i0, j0, ip, jq, hp, hq, e⟩ := sq_tile h.d hr ax hz
        rw [e, px_tz, qx_tz]
        omega
      · intro z hz hR c hc
        have hz1 : (sqEnv P (gsA ax)).In 1 r z := hz
        obtain ⟨i, j, p, q, rfl, i0, j0, ip, jq, hp, hq, e⟩ := sq_tile h.d hr ax hz
        have e1 : (sqEnv P (gsA ax)).g 1 r (tileAt ax i j) = tz ax p q := e
        rw [e] at hR hc ⊢
        obtain ⟨hR1, hR2⟩ := hR
        rw [qx_tz] at hR1
        rw [px_tz] at hR2
        subst hR1
        have hil : i < (P.at' ax.orth r).dist.localNrTiles := ((sq_in _ _ _ _ _).1 hz).1.2
        have hni : (P.at' ax.orth r).nx ((q : Int) + 1) ≤ i := by
          by_contra hcon
          have := (p1.lt_nx i0 (s := (q : Int) + 1) (by omega)).1 (by omega)
          omega
        have hx4' : x4 r = lineP P ax.orth (gsMid ax P.nt q m' A1) q q ((q : Int) + 1) := by
          rw [hx4]
          exact if_pos ⟨ho.symm, by omega⟩
        clear e0 hmix
        refine sq_rd (L := [x0, x1, x2, x3, x4]) (A := gsA ax) (M := set1 m0 0 c) (it := q) (dbg := dbg) (i := (P.at' ax r).nx q) (ax := ax.orth)
          (x := gsMid ax P.nt q m' A1) (k := q) (p := q) (s := q) (e := (q : Int) + 1)
          h.d hr 4 (by simp) hx4' h.lt (by omega) nk gk4 (le_refl _) (by omega) ?_
        refine VF.readMat (n := 1) (idx := tileAt ax i j)
          (k := fun b => DSt.task 0 (tileAt ax i j) (T.hemm (gsMid ax P.nt q m' A1 (tz ax.orth q q)) b)) hz1 ?_
        refine sq_task h.d hr hz e ?_
        have e2 : (GV.ofL (set1 m0 0 c) rest [x0, x1, x2, x3, x4]).mat 1 ((sqEnv P (gsA ax)).g 1 r (tileAt ax i j)) = l (tz ax p q) := by
          show set1 m0 0 c 1 _ = _
          rw [set1_ne _ _ (by omega), hl, e1]
        rw [e2, hc, tz_diag, h.mid_line hR2 hp, gsMid_other (by rw [← tz_diag ax, px_tz]; omega)]
        exact h.rel.line2 p hR2 hp
      · refine GV.ofL_mat fun n z hz => ?_
        by_cases hn : n = 0
        · subst hn
          rw [set1_same, set1_same]
          unfold mixT
          by_cases hc : False ∨ (qx ax ((sqEnv P (gsA ax)).g 0 r z) = k ∧ k < px ax ((sqEnv P (gsA ax)).g 0 r z))
          · rw [if_pos hc]
          · rw [if_neg hc]
            exact gsMid_other fun a b => hc (Or.inr ⟨a, b⟩)
        · rw [set1_ne _ _ hn, set1_ne _ _ hn]
    · refine (VF.reset (n := 4)).to (GV.ofL_to (n := 4) (by simp) y4 rfl ?_ rfl)
      show VP.loc _ (⟨_, (x4 r).s, (x4 r).e, _⟩ : VP K) = _
      rw [hx4, hy4]
      unfold gsP4
      split <;> rfl
  · have ho : ¬ (P.get ax).dist.rank_global_tile k = r.get ax := hc
    refine ((VL.nil _).frm hmix).to ⟨fun n z hz => ?_, fun n => ?_⟩
    · show set1 m0 0 _ n _ = set1 m0 0 _ n _
      by_cases hn : n = 0
      · subst hn
        rw [set1_same, set1_same]
        refine (if_neg id).trans (gsMid_other fun hq _ => ?_)
        obtain ⟨i, j, p, q, -, i0, j0, ip, jq, hp, hq', e⟩ := sq_tile h.d hr ax hz
        rw [e, qx_tz] at hq
        have := p2.gl_own j0
        rw [jq, hq] at this
        exact ho this
      · rw [set1_ne _ _ hn, set1_ne _ _ hn]
    · rcases n with _ | _ | _ | _ | _ | n
      · rfl
      · rfl
      · rfl
      · rfl
      · show VP.loc _ (x4 r) = VP.loc _ (y4 r)
        rw [hx4, hy4]
        unfold gsP4
        rw [if_neg (fun hb => ho hb.1.symm), if_neg (fun hb => ho hb.1.symm)]
      · rfl

/-- The first part of an iteration. -/
def gsFront (dbg : Bool) (ax : Coord) (T : GsTasks K) (d : Distribution) (k : Int) : List (Instr (DSt K) (Blk K)) :=
  (gsPrep dbg ax d k).map Instr.loc ++
  bcastPanels dbg ax d ((d.get ax).rank_global_tile k) (DSt.panel 0 k) (DSt.panel 1 k) k d.col.nrTiles k (d.col.nrTiles - 1) ++
  (gsRow dbg ax T d k).map Instr.loc ++
  (if k < d.col.nrTiles - 1 then
    bcastPanel dbg ax.orth d ((d.get ax.orth).rank_global_tile k) (DSt.panel 3 k) 0 k ++
    (gsBelow dbg ax T d k).map Instr.loc else []) ++
  [Instr.loc fun s => (DSt.panel 3 k).upd (fun v => some v.reset) s] ++
  (gsDiag T d k).map Instr.loc

/-- The second part. -/
def gsBack (dbg : Bool) (ax : Coord) (T : GsTasks K) (d : Distribution) (k : Int) : List (Instr (DSt K) (Blk K)) :=
  [Instr.loc fun s => (DSt.panel 2 k).upd (fun v => v.setRangeStart dbg (k + 1)) s] ++
    (if (d.get ax).rank_global_tile k = (d.get ax).rank then
      (gsSetDiag dbg ax d k).map Instr.loc ++
      bcastPanel dbg ax.orth d ((d.get ax.orth).rank_global_tile k) (DSt.panel 3 k) k (k + 1) ++
      (gsLine dbg ax T d k).map Instr.loc else []) ++
    [Instr.loc fun s => (DSt.panel 3 k).upd (fun v => v.setRange dbg (k + 1) (d.col.nrTiles - 1)) s] ++
    bcastPanels dbg ax d ((d.get ax).rank_global_tile k) (DSt.panel 2 k) (DSt.panel 3 k) (k + 1) d.col.nrTiles (k + 1) (d.col.nrTiles - 1) ++
    (gsTrailing dbg ax T d k).map Instr.loc ++ (gsReset k).map Instr.loc ++ (gsEnd dbg ax T d k).map Instr.loc

theorem gs_front (hl : m0 1 = l) {s1 e1 s3 e3 s0 : Coord2 → Int} (hx0 : ∀ r ∈ P.ranks, x0 r = noP P.row.tile (s0 r) P.nt) (hx1 : ∀ r, x1 r = noP P.row.tile (s1 r) (e1 r))
    (hx3 : ∀ r, x3 r = noP P.row.tile (s3 r) (e3 r)) :
    VStep (sqEnv P (gsA ax)) (rrIdx k) (fun r => gsFront dbg ax T (P.on r) k) (GV.ofL (set1 m0 0 m) rest [x0, x1, x2, x3, x4])
      (GV.ofL (set1 m0 0 (mixT (gsS3 ax k) m (gsMid ax P.nt k m' A1))) rest [fun _ => lineP P ax l k k P.nt, fun _ => gsLT P ax l k k ((P.nt : Int) - 1), x2, fun _ => noP P.row.tile 0 k, x4]) := by
  have hV : (sqEnv P (gsA ax)).OK := h.d.env
  have hlt := h.lt
  have hn : P.col.dist.nrTiles = P.nt := h.d.nrTiles .Col
  have hM1 : set1 m0 0 m 1 = l := by rw [set1_ne _ _ (by omega), hl]
  have S1 := VStep.locals hV (w := rrIdx k) fun r hr => gsPrep_step h (dbg := dbg) (rest := rest) (x0 := x0) (x1 := x1) (x2 := x2) (x3 := x3) (x4 := x4) hr (hx0 r hr) (hx1 r) (hx3 r) hM1
  have S2 := gsBcast1 h (dbg := dbg) (rest := rest) (x2 := x2) (x3 := fun _ => noP (P.tsz k) 0 k) (x4 := x4) (M := set1 m0 0 m)
  have S3 := VStep.locals hV (w := rrIdx k) fun r hr => gsRow_step h (dbg := dbg) (m0 := m0) (rest := rest) (x0 := fun _ => lineP P ax l k k P.nt) (x1 := fun _ => gsLT P ax l k k ((P.nt : Int) - 1))
    (x2 := x2) (x3 := fun _ => noP (P.tsz k) 0 k) (x4 := x4) hr rfl rfl
  let F3 : Coord2 → VP K := fun r => if k + 1 < P.nt then lineP P ax.orth (gsMid ax P.nt k m' A1) k 0 k else
    if r.get ax.orth = (P.get ax.orth).dist.rank_global_tile k then lineP P ax.orth (gsMid ax P.nt k m' A1) k 0 k else noP (P.tsz k) 0 k
  have S4 : VStep (sqEnv P (gsA ax)) (rrIdx k) (fun r => if (k : Int) < P.col.dist.nrTiles - 1 then
      bcastPanel dbg ax.orth (P.on r) ((P.get ax.orth).dist.rank_global_tile k) (DSt.panel 3 k) 0 k ++ (gsBelow dbg ax T (P.on r) k).map Instr.loc else [])
      (GV.ofL (set1 m0 0 (mixT (gsS1 ax k) m (gsMid ax P.nt k m' A1))) rest [fun _ => lineP P ax l k k P.nt, fun _ => gsLT P ax l k k ((P.nt : Int) - 1), x2,
        fun r => if r.get ax.orth = (P.get ax.orth).dist.rank_global_tile k then lineP P ax.orth (gsMid ax P.nt k m' A1) k 0 k else noP (P.tsz k) 0 k, x4])
      (GV.ofL (set1 m0 0 (mixT (gsS2 ax k) m (gsMid ax P.nt k m' A1))) rest [fun _ => lineP P ax l k k P.nt, fun _ => gsLT P ax l k k ((P.nt : Int) - 1), x2, F3, x4]) := by
    refine VStep.ite (fun hc => ?_) fun hc => ?_
    · have hF : F3 = fun _ => lineP P ax.orth (gsMid ax P.nt k m' A1) k 0 k := funext fun r => if_pos (by omega)
      rw [hF]
      refine VStep.append (sq_bcast h.d 3 (by simp) (it := k) (dbg := dbg) (ax := ax.orth) rfl rfl rfl (x := gsMid ax P.nt k m' A1) h.fA (k := k) (s := 0) (e := k) rfl h.lt (le_refl _) (by omega) (by omega) rfl) ?_
      exact VStep.locals hV (w := rrIdx k) fun r hr => gsBelow_step h (dbg := dbg) (m0 := m0) (rest := rest) (x0 := fun _ => lineP P ax l k k P.nt) (x1 := fun _ => gsLT P ax l k k ((P.nt : Int) - 1))
        (x2 := x2) (x3 := fun _ => lineP P ax.orth (gsMid ax P.nt k m' A1) k 0 k) (x4 := x4) hr rfl rfl
    · have hF : F3 = fun r => if r.get ax.orth = (P.get ax.orth).dist.rank_global_tile k then lineP P ax.orth (gsMid ax P.nt k m' A1) k 0 k else noP (P.tsz k) 0 k := funext fun r => if_neg (by omega)
      rw [hF]
      refine (VStep.nil _).to fun r hr => GV.ofL_mat fun n z hz => ?_
      by_cases hn0 : n = 0
      · subst hn0
        rw [set1_same, set1_same]
        unfold mixT
        refine if_congr ?_ rfl rfl
        obtain ⟨i, j, p, q, -, i0, j0, ip, jq, hp, hq, e⟩ := sq_tile h.d hr ax hz
        rw [e]
        unfold gsS1 gsS2
        rw [px_tz, qx_tz]
        omega
      · rw [set1_ne _ _ hn0, set1_ne _ _ hn0]
  have S5 : VStep (sqEnv P (gsA ax)) (rrIdx k) (fun _ => [fun s => (DSt.panel 3 k).upd (fun v => some v.reset) s].map Instr.loc)
      (GV.ofL (set1 m0 0 (mixT (gsS2 ax k) m (gsMid ax P.nt k m' A1))) rest [fun _ => lineP P ax l k k P.nt, fun _ => gsLT P ax l k k ((P.nt : Int) - 1), x2, F3, x4])
      (GV.ofL (set1 m0 0 (mixT (gsS2 ax k) m (gsMid ax P.nt k m' A1))) rest [fun _ => lineP P ax l k k P.nt, fun _ => gsLT P ax l k k ((P.nt : Int) - 1), x2, fun _ => noP P.row.tile 0 k, x4]) := by
    refine VStep.locals hV (w := rrIdx k) fun r hr => VF.one ?_
    refine (VF.reset (n := 3)).to (GV.ofL_to (n := 3) (by simp) (fun _ => noP P.row.tile 0 k) rfl ?_ rfl)
    show VP.loc _ (⟨_, (F3 r).s, (F3 r).e, _⟩ : VP K) = _
    have : (F3 r).s = 0 ∧ (F3 r).e = k := by
      show (VP.s (if _ then _ else if _ then _ else _)) = 0 ∧ (VP.e (if _ then _ else if _ then _ else _)) = _
      split
      · exact ⟨rfl, rfl⟩
      · split <;> exact ⟨rfl, rfl⟩
    rw [this.1, this.2]; rfl
  have S6 := VStep.locals hV (w := rrIdx k) fun r hr => gsDiag_step h (m0 := m0) (rest := rest) hr hl
    (L := [fun _ => lineP P ax l k k P.nt, fun _ => gsLT P ax l k k ((P.nt : Int) - 1), x2, fun _ => noP P.row.tile 0 k, x4]) (w := rrIdx k)
  refine (((((S1.append S2).append S3).append S4).append S5).append S6).congr fun r _ => ?_
  unfold gsFront
  rw [P.on_at, P.on_at]
  rfl

theorem gs_back (hk : k + 1 < P.nt) (hl : m0 1 = l) {s2 s4 e4 : Coord2 → Int} (hx2 : ∀ r ∈ P.ranks, x2 r = noP P.row.tile (s2 r) P.nt) (hx4 : ∀ r, x4 r = noP P.row.tile (s4 r) (e4 r)) :
    VStep (sqEnv P (gsA ax)) (rrIdx k) (fun r => gsBack dbg ax T (P.on r) k)
      (GV.ofL (set1 m0 0 (mixT (gsS3 ax k) m (gsMid ax P.nt k m' A1))) rest [fun _ => lineP P ax l k k P.nt, fun _ => gsLT P ax l k k ((P.nt : Int) - 1), x2, fun _ => noP P.row.tile 0 k, x4])
      (GV.ofL (set1 m0 0 m') rest [fun _ => noP P.row.tile k P.nt, fun _ => noP P.row.tile k ((P.nt : Int) - 1), fun _ => noP P.row.tile ((k : Int) + 1) P.nt,
        fun _ => noP P.row.tile ((k : Int) + 1) ((P.nt : Int) - 1), fun r => gsP4 P ax k (noP P.row.tile k ((k : Int) + 1)) (noP P.row.tile (s4 r) (e4 r)) r]) := by
  have hV : (sqEnv P (gsA ax)).OK := h.d.env
  have hlt := h.lt
  have hn : P.col.dist.nrTiles = P.nt := h.d.nrTiles .Col
  have t3 := (h.d.tsz_pos h.lt).2.2 hk
  let X := gsMid ax P.nt k m' A1
  let E0 : Coord2 → VP K := fun _ => lineP P ax l k k P.nt
  let E1 : Coord2 → VP K := fun _ => gsLT P ax l k k ((P.nt : Int) - 1)
  have hE1 : ∀ r, E1 r = lineP P ax l k k ((P.nt : Int) - 1) := fun r => by
    show gsLT P ax l k k ((P.nt : Int) - 1) = _
    rw [lineP, t3]; rfl
  let E2 : Coord2 → VP K := fun _ => noP P.row.tile ((k : Int) + 1) P.nt
  let G2 : Coord2 → VP K := fun r => if r.get ax = (P.get ax).dist.rank_global_tile k then lineP P ax X k ((k : Int) + 1) P.nt else noP P.row.tile ((k : Int) + 1) P.nt
  let G3 : Coord2 → VP K := fun r => if r.get ax = (P.get ax).dist.rank_global_tile k then noP P.row.tile k ((k : Int) + 1) else noP P.row.tile 0 k
  let G4 : Coord2 → VP K := fun r => gsP4 P ax k (lineP P ax.orth X k k ((k : Int) + 1)) (noP P.row.tile (s4 r) (e4 r)) r
  let H3 : Coord2 → VP K := fun _ => noP P.row.tile ((k : Int) + 1) ((P.nt : Int) - 1)
  have S1 : VStep (sqEnv P (gsA ax)) (rrIdx k) (fun _ => [fun s => (DSt.panel 2 k).upd (fun v => v.setRangeStart dbg ((k : Int) + 1)) s].map Instr.loc)
      (GV.ofL (set1 m0 0 (mixT (gsS3 ax k) m X)) rest [E0, E1, x2, fun _ => noP P.row.tile 0 k, x4]) (GV.ofL (set1 m0 0 (mixT (gsS3 ax k) m X)) rest [E0, E1, E2, fun _ => noP P.row.tile 0 k, x4]) := by
    refine VStep.locals hV (w := rrIdx k) fun r hr => VF.one ?_
    refine (VF.setRangeStart hV hr (n := 2) (by omega) ?_ ?_).to (GV.ofL_to (n := 2) (by simp) E2 rfl ?_ rfl)
    · show _ ≤ (x2 r).e
      rw [hx2 r hr]
      show (k : Int) + 1 ≤ (P.nt : Int)
      omega
    · show (x2 r).W = _
      rw [hx2 r hr]; rfl
    · show VP.loc _ (⟨(x2 r).ax, _, (x2 r).e, _⟩ : VP K) = _
      rw [hx2 r hr]; rfl
  have S2 : VStep (sqEnv P (gsA ax)) (rrIdx k) (fun r => (if ((P.on r).get ax).rank_global_tile k = ((P.on r).get ax).rank then gsSetDiag dbg ax (P.on r) k else []).map Instr.loc)
      (GV.ofL (set1 m0 0 (mixT (gsS3 ax k) m X)) rest [E0, E1, E2, fun _ => noP P.row.tile 0 k, x4]) (GV.ofL (set1 m0 0 (mixT (gsS3 ax k) m X)) rest [E0, E1, E2, gsD P ax X k false, x4]) := by
    refine VStep.locals hV fun r hr => ?_
    rw [P.on_at]
    refine VL.ite (fun hc => ?_) fun hc => ?_
    · have hc' : (P.get ax).dist.rank_global_tile k = r.get ax := hc
      exact gsSetDiag_step h hk hr hc'.symm rfl (by
        rw [set1_same]
        refine if_pos (Or.inr ?_)
        rw [← tz_diag ax, px_tz, qx_tz]
        exact ⟨rfl, rfl⟩)
    · have hc' : ¬ (P.get ax).dist.rank_global_tile k = r.get ax := hc
      refine (VL.nil _).to ⟨fun _ _ _ => rfl, fun n => ?_⟩
      rcases n with _ | _ | _ | _ | n
      · rfl
      · rfl
      · rfl
      · show VP.loc _ (noP P.row.tile 0 k) = VP.loc _ (gsD P ax X k false r)
        unfold gsD
        rw [if_neg (fun hb => hc' hb.symm)]
      · rfl
  have S3 := gsBcastD h (dbg := dbg) (rest := rest) (x0 := E0) (x1 := E1) (x2 := E2) (x4 := x4) (M := set1 m0 0 (mixT (gsS3 ax k) m X))
  have S4 : VStep (sqEnv P (gsA ax)) (rrIdx k) (fun r => (if ((P.on r).get ax).rank_global_tile k = ((P.on r).get ax).rank then gsLine dbg ax T (P.on r) k else []).map Instr.loc)
      (GV.ofL (set1 m0 0 (mixT (gsS3 ax k) m X)) rest [E0, E1, E2, gsD P ax X k true, x4]) (GV.ofL (set1 m0 0 (mixT (gsS4 ax P.nt k) m X)) rest [E0, E1, G2, G3, G4]) := by
    refine VStep.locals hV fun r hr => ?_
    rw [P.on_at]
    refine VL.ite (fun hc => ?_) fun hc => ?_
    · have hc' : (P.get ax).dist.rank_global_tile k = r.get ax := hc
      refine gsLine_step h hk hr hc'.symm hl rfl rfl ?_ (hx4 r) ?_ ?_ ?_
      · unfold gsD
        rw [if_pos hc'.symm, if_pos (Or.inl rfl)]
      · exact if_pos hc'.symm
      · exact if_pos hc'.symm
      · rw [hx4 r]
        refine ite_congr ?_ (fun _ => rfl) fun _ => rfl
        refine propext ⟨fun hb => hb.2, fun hb => ⟨hc'.symm, hb⟩⟩
    · have hc' : ¬ (P.get ax).dist.rank_global_tile k = r.get ax := hc
      refine (VL.nil _).to ⟨fun n z hz => ?_, fun n => ?_⟩
      · by_cases hn : n = 0
        · subst hn
          show set1 m0 0 _ 0 _ = set1 m0 0 _ 0 _
          rw [set1_same, set1_same]
          unfold mixT
          refine if_congr ?_ rfl rfl
          obtain ⟨i, j, p, q, -, i0, j0, ip, jq, hp, hq, e⟩ := sq_tile h.d hr ax hz
          rw [e]
          have hne : q ≠ k := by
            intro hqk
            have := (h.d.plainAt ax hr).gl_own j0
            rw [jq, hqk] at this
            exact hc' this
          unfold gsS4
          rw [px_tz, qx_tz]
          exact ⟨Or.inl, fun hx => hx.elim id fun hx => absurd hx.1 hne⟩
        · show set1 m0 0 _ n _ = set1 m0 0 _ n _
          rw [set1_ne _ _ hn, set1_ne _ _ hn]
      · rcases n with _ | _ | _ | _ | _ | n
        · rfl
        · rfl
        · show VP.loc _ (E2 r) = VP.loc _ (if r.get ax = _ then _ else _)
          rw [if_neg (fun hb => hc' hb.symm)]
        · show VP.loc _ (gsD P ax X k true r) = VP.loc _ (if r.get ax = _ then _ else _)
          unfold gsD
          rw [if_neg (fun hb => hc' hb.symm), if_neg (fun hb => hc' hb.symm)]
        · show VP.loc _ (x4 r) = VP.loc _ (gsP4 P ax k _ _ r)
          unfold gsP4
          rw [if_neg (fun hb => hc' hb.1.symm), hx4 r]
        · rfl
  have S5 : VStep (sqEnv P (gsA ax)) (rrIdx k) (fun _ => [fun s => (DSt.panel 3 k).upd (fun v => v.setRange dbg ((k : Int) + 1) (P.col.dist.nrTiles - 1)) s].map Instr.loc)
      (GV.ofL (set1 m0 0 (mixT (gsS4 ax P.nt k) m X)) rest [E0, E1, G2, G3, G4]) (GV.ofL (set1 m0 0 (mixT (gsS4 ax P.nt k) m X)) rest [E0, E1, G2, H3, G4]) := by
    refine VStep.locals hV (w := rrIdx k) fun r hr => VF.one ?_
    rw [hn]
    have hG : (G3 r).W = (fun _ => none) ∧ (G3 r).ax = P.row.tile := by
      show VP.W (if _ then _ else _) = _ ∧ VP.ax (if _ then _ else _) = _
      split <;> exact ⟨rfl, rfl⟩
    refine (VF.setRange hV hr (n := 3) (by omega) (by omega) ?_ hG.1).to (GV.ofL_to (n := 3) (by simp) H3 rfl ?_ rfl)
    · show _ ≤ (P.get ax.orth.orth).dist.nrTiles
      rw [h.d.nrTiles]; omega
    · show VP.loc _ (⟨(G3 r).ax, _, _, _⟩ : VP K) = _
      rw [hG.2]; rfl
  have S6 := gsBcast2 h hk (dbg := dbg) (rest := rest) (x0 := E0) (x1 := E1) (x4 := G4) (M := set1 m0 0 (mixT (gsS4 ax P.nt k) m X))
  have S7 := VStep.locals hV (w := rrIdx k) fun r hr => gsTrail_step h hk (dbg := dbg) (m0 := m0) (rest := rest) (x0 := E0) (x1 := E1)
    (x2 := fun _ => lineP P ax X k ((k : Int) + 1) P.nt) (x3 := fun _ => lineP P ax X k ((k : Int) + 1) ((P.nt : Int) - 1)) (x4 := G4) hr rfl (hE1 r) rfl rfl
  have S8 := VStep.locals hV (w := rrIdx k) fun r (_ : r ∈ P.ranks) => gsReset_step h (rest := rest) (r := r) (x0 := E0) (x1 := E1) (x2 := fun _ => lineP P ax X k ((k : Int) + 1) P.nt)
    (x3 := fun _ => lineP P ax X k ((k : Int) + 1) ((P.nt : Int) - 1)) (x4 := G4) (M := set1 m0 0 (mixT (gsS5 ax P.nt k) m X)) (s0 := k) (e0 := P.nt) (s1 := k) (e1 := (P.nt : Int) - 1)
    (s2 := (k : Int) + 1) (e2 := P.nt) (s3 := (k : Int) + 1) (e3 := (P.nt : Int) - 1) ⟨rfl, rfl⟩ ⟨rfl, rfl⟩ ⟨rfl, rfl⟩ ⟨rfl, rfl⟩
  have S9 := VStep.locals hV (w := rrIdx k) fun r hr => gsEnd_step h hk (dbg := dbg) (m0 := m0) (rest := rest) (x0 := fun _ => noP P.row.tile k P.nt) (x1 := fun _ => noP P.row.tile k ((P.nt : Int) - 1))
    (x2 := fun _ => noP P.row.tile ((k : Int) + 1) P.nt) (x3 := fun _ => noP P.row.tile ((k : Int) + 1) ((P.nt : Int) - 1)) (x4 := G4)
    (y4 := fun r => gsP4 P ax k (noP P.row.tile k ((k : Int) + 1)) (noP P.row.tile (s4 r) (e4 r)) r) hr hl (s4 := s4 r) (e4 := e4 r) rfl rfl
  refine ((((((((S1.append S2).append S3).append S4).append S5).append S6).append S7).append S8).append S9).congr fun r _ => ?_
  unfold gsBack
  simp only [List.append_assoc]
  congr 1
  split
  · simp only [List.append_assoc]
    rfl
  · rfl

/-- An iteration before the last one. -/
theorem gs_step (hk : k + 1 < P.nt) (hl : m0 1 = l) {g : Glob (DSt K) (Blk K)} (hg : VIdle (sqEnv P (gsA ax)) (set1 m0 0 m) g) :
    ∃ g', Runs (fun r => if r ∈ P.ranks then gsStep dbg ax T (P.on r) k else []) g g' ∧ VIdle (sqEnv P (gsA ax)) (set1 m0 0 m') g' := by
  have hV : (sqEnv P (gsA ax)).OK := h.d.env
  have hlt := h.lt
  have hn : P.col.dist.nrTiles = P.nt := h.d.nrTiles .Col
  refine VStep.iter (w := rrIdx k) (p := fun r => gsStep dbg ax T (P.on r) k) (fun ss se hss => ?_) hg
  let rest : Coord2 → Nat → VP K := fun r n => ⟨(sqEnv P (gsA ax)).E.tile n, ss r n, se r n, fun _ => none⟩
  have hse : ∀ r ∈ P.ranks, ∀ n, (gsA ax n).axis = ax → (gsA ax n).freeE = false → se r n = P.nt := by
    intro r hr n h1 h2
    have := (hss r hr n).2.2 h2
    rw [this]
    show (P.get (gsA ax n).axis.orth).dist.nrTiles = _
    exact h.d.nrTiles _
  have B1 := gs_front h (dbg := dbg) (m0 := m0) (rest := rest) (x0 := fun r => rest r 0) (x1 := fun r => rest r 1) (x2 := fun r => rest r 2) (x3 := fun r => rest r 3) (x4 := fun r => rest r 4) hl
    (s0 := fun r => ss r 0) (s1 := fun r => ss r 1) (e1 := fun r => se r 1) (s3 := fun r => ss r 3) (e3 := fun r => se r 3)
    (fun r hr => by show (⟨_, _, se r 0, _⟩ : VP K) = _; rw [hse r hr 0 rfl rfl]; rfl) (fun r => rfl) (fun r => rfl)
  have B2 := gs_back h (dbg := dbg) (m0 := m0) (rest := rest) (x2 := fun r => rest r 2) (x4 := fun r => rest r 4) hk hl (s2 := fun r => ss r 2) (s4 := fun r => ss r 4) (e4 := fun r => se r 4)
    (fun r hr => by show (⟨_, _, se r 2, _⟩ : VP K) = _; rw [hse r hr 2 rfl rfl]; rfl) (fun r => rfl)
  refine ⟨_, ((B1.append B2).congr fun r _ => ?_).frm fun r hr => ⟨fun _ _ _ => rfl, fun n => ?_⟩, rfl, fun r hr n => ?_⟩
  · unfold gsStep
    rw [if_neg (show ¬ (k : Int) = (P.on r).col.nrTiles - 1 from fun hc => by
      have hc' : (k : Int) = P.col.dist.nrTiles - 1 := hc
      omega)]
    rfl
  · rcases n with _ | _ | _ | _ | _ | n <;> rfl
  · obtain ⟨z0, z1, z2⟩ := hss r hr n
    rcases n with _ | _ | _ | _ | _ | n
    · refine ⟨rfl, rfl, ?_, fun hc => (by cases hc), fun _ => ?_⟩
      · show (0 : Int) ≤ k; omega
      · show (P.nt : Int) = (P.get ax.orth).dist.nrTiles
        rw [h.d.nrTiles]
    · refine ⟨rfl, rfl, ?_, fun hc => (by cases hc), fun hc => (by cases hc)⟩
      show (0 : Int) ≤ k; omega
    · refine ⟨rfl, rfl, ?_, fun hc => (by cases hc), fun _ => ?_⟩
      · show (0 : Int) ≤ (k : Int) + 1; omega
      · show (P.nt : Int) = (P.get ax.orth).dist.nrTiles
        rw [h.d.nrTiles]
    · refine ⟨rfl, rfl, ?_, fun hc => (by cases hc), fun hc => (by cases hc)⟩
      show (0 : Int) ≤ (k : Int) + 1; omega
    · show (gsP4 P ax k _ _ r).ax = _ ∧ (gsP4 P ax k _ _ r).W = _ ∧ 0 ≤ (gsP4 P ax k _ _ r).s ∧ (true = false → _) ∧ (true = false → _)
      unfold gsP4
      split
      · refine ⟨rfl, rfl, ?_, fun hc => (by cases hc), fun hc => (by cases hc)⟩
        show (0 : Int) ≤ k; omega
      · exact ⟨rfl, rfl, z0, fun hc => (by cases hc), fun hc => (by cases hc)⟩
    · exact ⟨rfl, rfl, z0, z1, z2⟩

/-- The last iteration. -/
theorem gs_last (hk : k + 1 = P.nt) (hl : m0 1 = l) {g : Glob (DSt K) (Blk K)} (hg : VIdle (sqEnv P (gsA ax)) (set1 m0 0 m) g) :
    ∃ g', Runs (fun r => if r ∈ P.ranks then gsStep dbg ax T (P.on r) k else []) g g' ∧ Clean P.ranks g' ∧
      ∀ r ∈ P.ranks, ∀ n z, (sqEnv P (gsA ax)).In n r z → (g'.st r).mat n z = set1 m0 0 m' n ((sqEnv P (gsA ax)).g n r z) := by
  have hV : (sqEnv P (gsA ax)).OK := h.d.env
  have hlt := h.lt
  have hn : P.col.dist.nrTiles = P.nt := h.d.nrTiles .Col
  have hex : ∀ r, ∃ ss se : Nat → Int, r ∈ P.ranks → PInv (sqEnv P (gsA ax)).E r (rrIdx k) ⟨(g.st r).mat, fun n => ⟨P.row.tile, ss n, se n, fun _ => none⟩⟩ (g.st r) ∧
      ∀ n, 0 ≤ ss n ∧ ((gsA ax n).freeS = false → ss n = 0) ∧ ((gsA ax n).freeE = false → se n = ((sqEnv P (gsA ax)).E.crd n r).dist.nrTiles) := by
    intro r
    by_cases hr : r ∈ P.ranks
    · obtain ⟨ss, se, h1, h2⟩ := (hg.all r hr).1.start (rrIdx k)
      exact ⟨ss, se, fun _ => ⟨h1, h2⟩⟩
    · exact ⟨fun _ => 0, fun _ => 0, fun h => absurd h hr⟩
  choose ss se hss using hex
  let rest : Coord2 → Nat → VP K := fun r n => ⟨P.row.tile, ss r n, se r n, fun _ => none⟩
  have hse : ∀ r ∈ P.ranks, se r 0 = P.nt := by
    intro r hr
    have := ((hss r hr).2 0).2.2 rfl
    rw [this]
    show (P.get ax.orth).dist.nrTiles = _
    exact h.d.nrTiles _
  have B1 := gs_front h (dbg := dbg) (m0 := m0) (rest := rest) (x0 := fun r => rest r 0) (x1 := fun r => rest r 1) (x2 := fun r => rest r 2) (x3 := fun r => rest r 3) (x4 := fun r => rest r 4) hl
    (s0 := fun r => ss r 0) (s1 := fun r => ss r 1) (e1 := fun r => se r 1) (s3 := fun r => ss r 3) (e3 := fun r => se r 3)
    (fun r hr => by show (⟨_, _, se r 0, _⟩ : VP K) = _; rw [hse r hr]; rfl) (fun r => rfl) (fun r => rfl)
  obtain ⟨g', r1, i1⟩ := B1 g ⟨hg.clean, fun r hr => ⟨by
    have := (hss r hr).1
    have e : (fun n => VP.loc ((sqEnv P (gsA ax)).E.crd n r) ((GV.ofL (set1 m0 0 m) rest [fun r => rest r 0, fun r => rest r 1, fun r => rest r 2, fun r => rest r 3, fun r => rest r 4]).pan r n)) =
        fun n => (⟨P.row.tile, ss r n, se r n, fun _ => none⟩ : PanD K) := by
      funext n
      rcases n with _ | _ | _ | _ | _ | n <;> exact VP.loc_none
    rw [e]
    exact this, (hg.all r hr).2⟩⟩
  refine ⟨g', r1.congr fun r => ?_, i1.clean, fun r hr n z hz => ?_⟩
  · refine ite_congr rfl (fun _ => ?_) fun _ => rfl
    unfold gsStep
    rw [if_pos (show (k : Int) = (P.on r).col.nrTiles - 1 from by
      show (k : Int) = P.col.dist.nrTiles - 1
      omega), List.append_nil]
    rfl
  · rw [(i1.all r hr).mat n z hz]
    show set1 m0 0 _ n _ = _
    by_cases hn0 : n = 0
    · subst hn0
      rw [set1_same, set1_same]
      obtain ⟨i, j, p, q, -, i0, j0, ip, jq, hp, hq, e⟩ := sq_tile h.d hr ax hz
      rw [e]
      unfold mixT
      by_cases hc : gsS3 ax k (tz ax p q)
      · rw [if_pos hc, gsMid_other (by rw [px_tz]; omega)]
      · rw [if_neg hc]
        refine (h.rel.other _ ?_).symm
        unfold gsS3 at hc
        rw [px_tz, qx_tz] at hc ⊢
        omega
    · rw [set1_ne _ _ hn0, set1_ne _ _ hn0]

end steps
/-- The tiles that the processes hold. -/
def VHolds (V : VEnv) (m : Nat → Tiles K) (g : Glob (DSt K) (Blk K)) : Prop :=
  ∀ r ∈ V.E.G, ∀ n z, V.In n r z → (g.st r).mat n z = m n (V.g n r z)

/-- All iterations. -/
theorem gs_runs {P : Params2} {ax : Coord} {T : GsTasks K} {l m m' : Tiles K} {dbg : Bool} {m0 : Nat → Tiles K}
    (hd : SquareDist P) (hT : T.Keeps) (hl : P.Fits l) (hm : P.Fits m) (hf : forM' (upto 0 P.nt) m (gsStepG ax T P.nt l) = some m') (h1 : m0 1 = l)
    {g : Glob (DSt K) (Blk K)} (hg : VIdle (sqEnv P (gsA ax)) (set1 m0 0 m) g) :
    ∃ g', Runs (fun r => if r ∈ P.ranks then gsDist dbg ax T (P.on r) else []) g g' ∧ VHolds (sqEnv P (gsA ax)) (set1 m0 0 m') g' := by
  obtain ⟨D, A1, d0, dn, hD⟩ := gs_order hf
  have hfit : ∀ k, k ≤ P.nt → P.Fits (D k) := by
    intro k
    induction k with
    | zero => intro _; rw [d0]; exact hm
    | succ k ih =>
      intro hk i hi j hj
      have := (hD k (by omega)).shape hT (i, j)
      rw [this.1, this.2]
      exact ih (by omega) i hi j hj
  have hmid : ∀ k, k < P.nt → P.Fits (gsMid ax P.nt k (D (k + 1)) (A1 k)) := by
    intro k hk i hi j hj
    unfold gsMid
    by_cases hc : qx ax (i, j) = k ∧ k < px ax (i, j) ∧ px ax (i, j) < P.nt
    · rw [if_pos hc]
      obtain ⟨x, x1, x2⟩ := (hD k hk).line1 _ hc.2.1 hc.2.2
      have e1 := hT.trsm _ _ _ x1
      have e2 := hT.hemm _ _ _ _ x2
      have ez : tz ax (px ax (i, j)) k = (i, j) := by
        have := tz_px_qx ax (i, j)
        rw [hc.1] at this
        exact this
      rw [e2.1, e2.2, e1.1, e1.2, ez]
      exact hfit k (by omega) i hi j hj
    · rw [if_neg hc]
      exact hfit (k + 1) (by omega) i hi j hj
  obtain ⟨g', r1, i1, i2⟩ := Runs.range (p := fun k r => if r ∈ P.ranks then gsStep dbg ax T (P.on r) k else []) (s := 0) (e := P.nt) (by omega)
    (fun t g => (t < P.nt → VIdle (sqEnv P (gsA ax)) (set1 m0 0 (D t.toNat)) g) ∧ VHolds (sqEnv P (gsA ax)) (set1 m0 0 (D t.toNat)) g) (g := g)
    ⟨fun _ => by rw [show D (Int.toNat 0) = m from d0]; exact hg, by rw [show D (Int.toNat 0) = m from d0]; exact fun r hr => (hg.all r hr).2⟩ (by
      intro t t0 t1 g ⟨hg, _⟩
      obtain ⟨k, rfl⟩ := Int.eq_ofNat_of_zero_le t0
      have hk : k < P.nt := by omega
      have hg := hg t1
      have e1 : ((k : Int) + 1).toNat = k + 1 := by omega
      rw [e1]
      rw [show Int.toNat (k : Int) = k from by omega] at hg
      have hc : GsCtx P ax T k l (D k) (D (k + 1)) (A1 k) := ⟨hd, hl, hfit k (by omega), hmid k hk, hD k hk, hk⟩
      by_cases hlast : k + 1 = P.nt
      · obtain ⟨g', r1, i1, i2⟩ := gs_last hc (dbg := dbg) hlast h1 hg
        exact ⟨g', r1, fun hx => by omega, i2⟩
      · obtain ⟨g', r1, i1⟩ := gs_step hc (dbg := dbg) (by omega) h1 hg
        exact ⟨g', r1, fun _ => i1, fun r hr => (i1.all r hr).2⟩)
  rw [show D (Int.toNat (P.nt : Int)) = m' from by rw [Int.toNat_natCast]; exact dn] at i2
  refine ⟨g', r1.congr fun r => ?_, i2⟩
  by_cases hr : r ∈ P.ranks
  · simp only [if_pos hr]
    unfold gsDist
    have hn : (P.on r).col.nrTiles = P.nt := hd.nrTiles .Col
    rw [hn]
  · simp [hr]

end DLAF
