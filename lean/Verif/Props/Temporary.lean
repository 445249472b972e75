import Verif.Props.Data
import Verif.Props.Copy
/- C23: temporary communication buffers are transparent. -/
namespace DLAF

/-- The temporary of a tile with at least one row: allocated, of the same shape, contiguous. -/
theorem duplicateTile_some {t : TileRef} (w : t.WF) (hr : 1 ≤ t.tile.rows) (tmp : Nat) :
    ∃ d, duplicateTile tmp t = some d ∧ d.WF ∧ t.SameShape d ∧ d.SameShape t ∧ d.obj = tmp ∧
      d.is_contiguous = true := by
  obtain ⟨w1, w2, w3⟩ := w
  refine ⟨⟨tmp, ⟨t.tile.rows, t.tile.cols, ⟨.whole, 0, t.tile.rows * t.tile.cols⟩, t.tile.rows⟩⟩, ?_,
    ⟨w1, w2, by simp only; omega⟩, ⟨rfl, rfl⟩, ⟨rfl, rfl⟩, rfl, by simp [TileRef.is_contiguous]⟩
  unfold duplicateTile MemView.alloc
  rw [if_pos (Int.mul_nonneg w1 w2), Option.bind_some]
  unfold Tile.create
  rw [if_pos]
  · rfl
  · refine ⟨⟨w1, w2⟩, by omega, ?_⟩
    by_cases h : t.tile.cols = 0
    · exact Or.inl (Or.inr h)
    · right
      unfold Tile.linearSize
      rw [if_neg (by omega)]
      simp only
      have : t.tile.rows + t.tile.rows * (t.tile.cols - 1) = t.tile.rows * t.tile.cols := by ring
      omega

/-- A tile-level operation seen through the contents: it reads/writes only the tile it is given, its result
and the new contents depend only on the old contents. `admissible`: when it does not abort. -/
structure Acts {E R : Type} (f : TileOp E R) (ok : TileRef → Prop) (tmps : List Nat)
    (new : List E → List E) (res : List E → R) (n : Nat) : Prop where
  acts : ∀ t : TileRef, t.WF → ok t → t.cells.length = n → t.obj ∉ tmps → ∀ m : Addr → E,
    ∃ m', f t m = some (m', res (t.contents m)) ∧ OnlyTileChanged t tmps m m' (new (t.contents m))

/-- Key step: through a temporary or directly, the effect on the tile is the same, if the input is copied in
or not read, and the output copied back or equal to the input. -/
theorem withTemporary_acts {E R : Type} (heavy isFloat : Bool) (cfg : TempCfg) (tmp : Nat)
    {f : TileOp E R} {ok : TileRef → Prop} {tmps : List Nat} {new : List E → List E} {res : List E → R}
    {n : Nat} (ha : Acts f ok tmps new res n)
    (hin : cfg.copyTo = true ∨ (∀ v w : List E, v.length = n → w.length = n → new v = new w ∧ res v = res w))
    (hout : cfg.copyFrom = true ∨ ∀ v, new v = v) (htmp : tmp ∉ tmps)
    {t : TileRef} (w : t.WF) (hr : 1 ≤ t.tile.rows) (hn : t.cells.length = n) (ht : t.obj ≠ tmp)
    (htt : t.obj ∉ tmps)
    (hok : (cfg.requireContiguous = false ∨ t.is_contiguous = true) → ok t)
    (hokc : ∀ d : TileRef, d.is_contiguous = true → t.SameShape d → ok d) (m : Addr → E) :
    ∃ m', withTemporaryTile heavy isFloat cfg tmp f t m = some (m', res (t.contents m)) ∧
      OnlyTileChanged t (tmp :: tmps) m m' (new (t.contents m)) := by
  unfold withTemporaryTile
  by_cases hd : (cfg.sameDevice && (!cfg.requireContiguous || t.is_contiguous)) = true
  · rw [if_pos hd]
    simp only [Bool.and_eq_true, Bool.or_eq_true, Bool.not_eq_true'] at hd
    obtain ⟨m', h1, h2, h3⟩ := ha.acts t w (hok hd.2) hn htt m
    exact ⟨m', h1, h2, fun x hx hc => h3 x (fun hc' => hx (List.mem_cons_of_mem _ hc')) hc⟩
  · rw [if_neg hd]
    obtain ⟨d, e1, e2, e3, e3', e4, e5⟩ := duplicateTile_some w hr tmp
    rw [e1, Option.bind_some]
    have hlen : t.cells.length = d.cells.length := by
      rw [t.cells_length, d.cells_length, e3.1, e3.2]
    have hdis : ∀ x ∈ t.cells, x ∉ d.cells := by
      intro x hx hx'
      have a := TileRef.cells_obj hx
      have b := TileRef.cells_obj hx'
      rw [e4] at b
      exact ht (a.symm.trans b)
    have hdis' : ∀ x ∈ d.cells, x ∉ t.cells := fun x hx hx' => hdis x hx' hx
    -- copy in
    have hcin : ∃ m1, (if cfg.copyTo = true then (tileCopy heavy isFloat t d).map fun l => runAssigns l m
        else some m) = some m1 ∧ (cfg.copyTo = true → d.contents m1 = t.contents m) ∧
        ∀ x, x.1 ≠ tmp → m1 x = m x := by
      by_cases hct : cfg.copyTo = true
      · rw [if_pos hct, tileCopy_eq w e2 e3]
        obtain ⟨g1, g2⟩ := runAssigns_zip hlen (TileRef.cells_nodup e2) hdis m
        refine ⟨_, rfl, fun _ => g1, fun x hx => g2 x fun hx' => hx ?_⟩
        rw [TileRef.cells_obj hx', e4]
      · rw [if_neg hct]
        exact ⟨m, rfl, fun h => absurd h hct, fun _ _ => rfl⟩
    obtain ⟨m1, hm1, hc1, hf1⟩ := hcin
    rw [hm1, Option.bind_some]
    obtain ⟨m2, k1, k2, k3⟩ := ha.acts d e2 (hokc d e5 e3) (by rw [← hlen]; exact hn)
      (by rw [e4]; exact htmp) m1
    rw [k1, Option.bind_some]
    have hl1 : (d.contents m1).length = n := by unfold TileRef.contents; rw [List.length_map, ← hlen, hn]
    have hl2 : (t.contents m).length = n := by unfold TileRef.contents; rw [List.length_map, hn]
    have hsame : new (d.contents m1) = new (t.contents m) ∧ res (d.contents m1) = res (t.contents m) := by
      rcases hin with h | h
      · rw [hc1 h]; exact ⟨rfl, rfl⟩
      · exact h _ _ hl1 hl2
    have hframe : ∀ x : Addr, x.1 ∉ tmp :: tmps → m2 x = m x := by
      intro x hx
      simp only [List.mem_cons, not_or] at hx
      rw [k3 x hx.2 fun hc => hx.1 (by rw [TileRef.cells_obj hc, e4]), hf1 x hx.1]
    by_cases hcf : cfg.copyFrom = true
    · rw [if_pos hcf, tileCopy_eq e2 w e3', Option.map_some]
      obtain ⟨g1, g2⟩ := runAssigns_zip hlen.symm (TileRef.cells_nodup w) hdis' m2
      refine ⟨_, by rw [hsame.2], ?_, fun x hx hc => ?_⟩
      · rw [← hsame.1, ← k2]
        exact g1
      · rw [g2 x hc]
        exact hframe x hx
    · rw [if_neg hcf]
      refine ⟨_, by rw [hsame.2], ?_, fun x hx hc => hframe x hx⟩
      have hnew : new (t.contents m) = t.contents m := by
        rcases hout with h | h
        · exact absurd h hcf
        · exact h _
      rw [hnew]
      unfold TileRef.contents
      apply List.map_congr_left
      intro x hx
      apply hframe
      rw [TileRef.cells_obj hx]
      simp only [List.mem_cons, not_or]
      exact ⟨ht, htt⟩

theorem contents_length {E : Type} (t : TileRef) (w : t.WF) (m : Addr → E) :
    ((t.contents m).length : Int) = t.tile.rows * t.tile.cols := by
  unfold TileRef.contents
  rw [List.length_map, t.cells_length, Int.natCast_mul, Int.toNat_of_nonneg w.1, Int.toNat_of_nonneg w.2.1,
    Int.mul_comm]

theorem sendOp_acts {E : Type} (n : Nat) : Acts (E := E) sendOp (fun _ => True) [] id id n := by
  constructor
  intro t w _ _ _ m
  exact ⟨m, by simp [sendOp, msgRead_eq w], rfl, fun _ _ _ => rfl⟩

theorem recvOp_acts {E : Type} (vs : List E) :
    Acts (E := E) (recvOp vs) (fun _ => True) [] (fun _ => vs) (fun _ => ()) vs.length := by
  constructor
  intro t w _ hn _ m
  refine ⟨storeAt t.cells vs m, by simp [recvOp, msgWrite_eq w], ?_,
    fun x _ hc => storeAt_other _ _ _ hc⟩
  exact storeAt_map _ _ _ (TileRef.cells_nodup w) hn.symm

theorem reduceSendOp_acts {E : Type} (n : Nat) :
    Acts (E := E) reduceSendOp (fun t => t.is_contiguous = true) [] id id n := by
  constructor
  intro t w hc _ _ m
  refine ⟨m, ?_, rfl, fun _ _ _ => rfl⟩
  unfold reduceSendOp
  simp [hc, basic_of_contig w hc, msgRead_eq w]

theorem reduceInPlaceOp_acts {E : Type} {g : List E → Option (List E)} {new : List E → List E} {n : Nat}
    (hg : ∀ v, v.length = n → g v = some (new v) ∧ (new v).length = n) :
    Acts (E := E) (reduceInPlaceOp g) (fun t => t.is_contiguous = true) [] new id n := by
  constructor
  intro t w hc hn _ m
  have hl : (t.contents m).length = n := by unfold TileRef.contents; rw [List.length_map, hn]
  obtain ⟨g1, g2⟩ := hg _ hl
  refine ⟨_, ?_, ?_, fun x _ hx => storeAt_other t.cells (new (t.contents m)) m hx⟩
  · unfold reduceInPlaceOp
    simp only [hc, basic_of_contig w hc, msgRead_eq w, g1, msgWrite_eq w, Bool.true_and, beq_self_eq_true,
      if_true, Option.bind_some, Option.map_some, id]
  · exact storeAt_map _ _ _ (TileRef.cells_nodup w) (by rw [g2, hn])

/-- C23, send and broadcast-send: with or without a temporary (other device, non-contiguous tile) the
transmitted data are the elements of the tile, and nothing is changed. -/
theorem C23_send {E : Type} (heavy isFloat sameDevice requireContiguous : Bool) {t : TileRef} (w : t.WF)
    (hr : 1 ≤ t.tile.rows) {tmp : Nat} (ht : t.obj ≠ tmp) (m : Addr → E) :
    ∃ m', scheduleSend heavy isFloat sameDevice requireContiguous tmp t m = some (m', t.contents m) ∧
      NothingChanged [tmp] m m' := by
  obtain ⟨m', h1, h2, h3⟩ := withTemporary_acts heavy isFloat
    ⟨sameDevice, true, false, requireContiguous⟩ tmp (sendOp_acts (E := E) t.cells.length) (Or.inl rfl)
    (Or.inr fun _ => rfl) (by simp) w hr rfl ht (by simp) (fun _ => trivial) (fun _ _ _ => trivial) m
  refine ⟨m', h1, fun x hx => ?_⟩
  by_cases hc : x ∈ t.cells
  · obtain ⟨k, hk, rfl⟩ := List.mem_iff_getElem.1 hc
    have := congrArg (fun l => l[k]?) h2
    simpa [TileRef.contents, hk] using this
  · exact h3 x hx hc

/-- C23, receive and broadcast-receive: afterwards the tile contains the received values, nothing else
changed. -/
theorem C23_recv {E : Type} (heavy isFloat sameDevice requireContiguous : Bool) {t : TileRef} (w : t.WF)
    (hr : 1 ≤ t.tile.rows) {tmp : Nat} (ht : t.obj ≠ tmp) (vs : List E)
    (hv : (vs.length : Int) = t.tile.rows * t.tile.cols) (m : Addr → E) :
    ∃ m', scheduleRecv heavy isFloat sameDevice requireContiguous tmp vs t m = some (m', ()) ∧
      OnlyTileChanged t [tmp] m m' vs := by
  have hn : t.cells.length = vs.length := by
    have := contents_length t w m
    unfold TileRef.contents at this
    rw [List.length_map] at this
    omega
  exact withTemporary_acts heavy isFloat ⟨sameDevice, false, true, requireContiguous⟩ tmp
    (recvOp_acts vs) (Or.inr fun _ _ _ _ => ⟨rfl, rfl⟩) (Or.inl rfl) (by simp) w hr hn ht (by simp)
    (fun _ => trivial) (fun _ _ _ => trivial) m

/-- C23, contribution to a reduction: never aborts, contributes the elements of the tile, changes
nothing. -/
theorem C23_reduce_send {E : Type} (heavy isFloat sameDevice : Bool) {t : TileRef} (w : t.WF)
    (hr : 1 ≤ t.tile.rows) {tmp : Nat} (ht : t.obj ≠ tmp) (m : Addr → E) :
    ∃ m', scheduleReduceSend heavy isFloat sameDevice tmp t m = some (m', t.contents m) ∧
      NothingChanged [tmp] m m' := by
  obtain ⟨m', h1, h2, h3⟩ := withTemporary_acts heavy isFloat ⟨sameDevice, true, false, true⟩ tmp
    (reduceSendOp_acts (E := E) t.cells.length) (Or.inl rfl)
    (Or.inr fun _ => rfl) (by simp) w hr rfl ht (by simp)
    (fun h => h.resolve_left (by simp)) (fun _ h _ => h) m
  refine ⟨m', h1, fun x hx => ?_⟩
  by_cases hc : x ∈ t.cells
  · obtain ⟨k, hk, rfl⟩ := List.mem_iff_getElem.1 hc
    have := congrArg (fun l => l[k]?) h2
    simpa [TileRef.contents, hk] using this
  · exact h3 x hx hc

/-- C23, in-place reduction (`g`: what MPI makes of this rank's values): never aborts and replaces the
contents `v` of the tile by `g v`, nothing else changed. -/
theorem C23_reduce_in_place {E : Type} (heavy isFloat sameDevice : Bool) {t : TileRef} (w : t.WF)
    (hr : 1 ≤ t.tile.rows) {tmp : Nat} (ht : t.obj ≠ tmp) {g : List E → Option (List E)}
    {new : List E → List E}
    (hg : ∀ v : List E, (v.length : Int) = t.tile.rows * t.tile.cols →
      g v = some (new v) ∧ (new v).length = v.length) (m : Addr → E) :
    ∃ m', scheduleReduceInPlace heavy isFloat sameDevice tmp g t m = some (m', t.contents m) ∧
      OnlyTileChanged t [tmp] m m' (new (t.contents m)) := by
  have hn : (t.cells.length : Int) = t.tile.rows * t.tile.cols := by
    have := contents_length t w m
    unfold TileRef.contents at this
    rw [List.length_map] at this
    exact this
  exact withTemporary_acts heavy isFloat ⟨sameDevice, true, true, true⟩ tmp
    (reduceInPlaceOp_acts (g := g) (new := new) (n := t.cells.length) fun v hv => by
      obtain ⟨h1, h2⟩ := hg v (by rw [hv]; exact hn)
      exact ⟨h1, h2.trans hv⟩)
    (Or.inl rfl) (Or.inl rfl) (by simp) w hr rfl ht (by simp)
    (fun h => h.resolve_left (by simp)) (fun _ h _ => h) m

/-- C23, all-reduce from an input tile to an output tile: never aborts; the output tile contains `g` of the
input tile's values, the input tile and the rest are unchanged. -/
theorem C23_all_reduce {E : Type} (heavy isFloat sameDevice : Bool) {tin tout : TileRef} (wi : tin.WF)
    (wo : tout.WF) (hs : tin.SameShape tout) (hr : 1 ≤ tin.tile.rows) {tmpI tmpO : Nat} (hIO : tmpI ≠ tmpO)
    (hi1 : tin.obj ≠ tmpI) (hi2 : tin.obj ≠ tmpO) (ho1 : tout.obj ≠ tmpI) (ho2 : tout.obj ≠ tmpO)
    (hdis : ∀ x ∈ tin.cells, x ∉ tout.cells) {g : List E → Option (List E)} {new : List E → List E}
    (hg : ∀ v : List E, (v.length : Int) = tin.tile.rows * tin.tile.cols →
      g v = some (new v) ∧ (new v).length = v.length) (m : Addr → E) :
    ∃ m', scheduleAllReduce heavy isFloat sameDevice tmpI tmpO g tin tout m = some (m', tin.contents m) ∧
      OnlyTileChanged tout [tmpI, tmpO] m m' (new (tin.contents m)) ∧ tin.contents m' = tin.contents m := by
  have hlenS : tin.cells.length = tout.cells.length := by
    rw [TileRef.cells_length, TileRef.cells_length, hs.1, hs.2]
  -- inner operation on an output tile `d` whose cells are not those of `tin`
  have inner : ∀ d : TileRef, d.WF → d.is_contiguous = true → d.cells.length = tin.cells.length →
      d.obj ≠ tmpI → (∀ x ∈ tin.cells, x ∉ d.cells) → ∀ m : Addr → E,
      ∃ m', withTemporaryTile heavy isFloat ⟨sameDevice, true, false, true⟩ tmpI
        (fun tin m => allReduceOp g tin d m) tin m = some (m', tin.contents m) ∧
        d.contents m' = new (tin.contents m) ∧
        (∀ x : Addr, x.1 ≠ tmpI → x ∉ d.cells → m' x = m x) := by
    intro d wd hc hl hdt hdd m
    have core : ∀ s : TileRef, s.WF → s.is_contiguous = true → s.cells.length = tin.cells.length →
        ∀ m : Addr → E, allReduceOp g s d m = some (storeAt d.cells (new (s.contents m)) m, s.contents m) := by
      intro s ws hsc hsl m
      have h1 : ((s.contents m).length : Int) = tin.tile.rows * tin.tile.cols := by
        have := contents_length tin wi m
        unfold TileRef.contents at this ⊢
        rw [List.length_map] at this ⊢
        rw [hsl]; exact this
      unfold allReduceOp
      simp only [hsc, hc, basic_of_contig ws hsc, msgRead_eq ws, (hg _ h1).1, msgWrite_eq wd, Bool.and_self,
        Bool.true_and, beq_self_eq_true, if_true, Option.bind_some, Option.map_some]
    have hlen' : ∀ s : TileRef, s.WF → s.cells.length = tin.cells.length → ∀ m : Addr → E,
        (new (s.contents m)).length = d.cells.length := by
      intro s ws hsl m
      have h0 := contents_length tin wi m
      unfold TileRef.contents at h0
      rw [List.length_map] at h0
      have h1 : (s.contents m).length = tin.cells.length := by
        unfold TileRef.contents; rw [List.length_map, hsl]
      rw [(hg _ (by rw [h1]; exact h0)).2, h1, hl]
    unfold withTemporaryTile
    by_cases hd : (sameDevice && (!true || tin.is_contiguous)) = true
    · rw [if_pos hd]
      simp only [Bool.not_true, Bool.false_or, Bool.and_eq_true] at hd
      refine ⟨_, core tin wi hd.2 rfl m, ?_, fun x _ hx => storeAt_other _ _ _ hx⟩
      exact storeAt_map _ _ _ (TileRef.cells_nodup wd) (hlen' tin wi rfl m)
    · rw [if_neg hd]
      obtain ⟨e, e1, e2, e3, e3', e4, e5⟩ := duplicateTile_some wi hr tmpI
      rw [e1, Option.bind_some]
      simp only [if_true]
      rw [tileCopy_eq wi e2 e3, Option.map_some, Option.bind_some]
      have hle : tin.cells.length = e.cells.length := by
        rw [TileRef.cells_length, TileRef.cells_length, e3.1, e3.2]
      have hdis' : ∀ x ∈ tin.cells, x ∉ e.cells := by
        intro x hx hx'
        have a := TileRef.cells_obj hx
        have b := TileRef.cells_obj hx'
        rw [e4] at b
        exact hi1 (a.symm.trans b)
      obtain ⟨g1, g2⟩ := runAssigns_zip hle (TileRef.cells_nodup e2) hdis' m
      rw [core e e2 e5 hle.symm, Option.bind_some]
      simp only [Bool.false_eq_true, if_false]
      have hcont : e.contents (runAssigns (tin.cells.zip e.cells) m) = tin.contents m := g1
      rw [hcont]
      refine ⟨_, rfl, ?_, fun x hx hx' => ?_⟩
      · exact storeAt_map _ _ _ (TileRef.cells_nodup wd) (hlen' tin wi rfl m)
      · rw [storeAt_other _ _ _ hx']
        exact g2 x fun hc => hx (by rw [TileRef.cells_obj hc, e4])
  have fin : ∀ m' : Addr → E, (∀ x : Addr, x.1 ∉ [tmpI, tmpO] → x ∉ tout.cells → m' x = m x) →
      tin.contents m' = tin.contents m := by
    intro m' h
    unfold TileRef.contents
    apply List.map_congr_left
    intro x hx
    apply h x _ (hdis x hx)
    rw [TileRef.cells_obj hx]
    simp only [List.mem_cons, List.not_mem_nil, or_false, not_or]
    exact ⟨hi1, hi2⟩
  unfold scheduleAllReduce
  show ∃ m', withTemporaryTile heavy isFloat ⟨sameDevice, false, true, true⟩ tmpO _ tout m = some (m', tin.contents m) ∧ _
  unfold withTemporaryTile
  by_cases hd : (sameDevice && (!true || tout.is_contiguous)) = true
  · rw [if_pos hd]
    simp only [Bool.not_true, Bool.false_or, Bool.and_eq_true] at hd
    obtain ⟨m', k1, k2, k3⟩ := inner tout wo hd.2 hlenS.symm ho1 hdis m
    have hf : ∀ x : Addr, x.1 ∉ [tmpI, tmpO] → x ∉ tout.cells → m' x = m x := by
      intro x hx hc
      simp only [List.mem_cons, List.not_mem_nil, or_false, not_or] at hx
      exact k3 x hx.1 hc
    exact ⟨m', k1, ⟨k2, hf⟩, fin m' hf⟩
  · rw [if_neg hd]
    obtain ⟨e, e1, e2, e3, e3', e4, e5⟩ := duplicateTile_some wo (by rw [← hs.1]; exact hr) tmpO
    rw [e1, Option.bind_some]
    simp only [Bool.false_eq_true, if_false, if_true, Option.bind_some]
    have hle : tout.cells.length = e.cells.length := by
      rw [TileRef.cells_length, TileRef.cells_length, e3.1, e3.2]
    have hde : ∀ x ∈ tin.cells, x ∉ e.cells := by
      intro x hx hx'
      have a := TileRef.cells_obj hx
      have b := TileRef.cells_obj hx'
      rw [e4] at b
      exact hi2 (a.symm.trans b)
    have hdo : ∀ x ∈ e.cells, x ∉ tout.cells := by
      intro x hx hx'
      have a := TileRef.cells_obj hx
      have b := TileRef.cells_obj hx'
      rw [e4] at a
      exact ho2 (b.symm.trans a)
    obtain ⟨m', k1, k2, k3⟩ := inner e e2 e5 (hle.symm.trans hlenS.symm) (by rw [e4]; exact hIO.symm) hde m
    unfold withTemporaryTile at k1
    simp only [Bool.false_eq_true, if_false, if_true] at k1
    rw [k1, Option.bind_some, tileCopy_eq e2 wo e3', Option.map_some]
    obtain ⟨g1, g2⟩ := runAssigns_zip hle.symm (TileRef.cells_nodup wo) hdo m'
    have hf : ∀ x : Addr, x.1 ∉ [tmpI, tmpO] → x ∉ tout.cells →
        runAssigns (e.cells.zip tout.cells) m' x = m x := by
      intro x hx hc
      simp only [List.mem_cons, List.not_mem_nil, or_false, not_or] at hx
      rw [g2 x hc]
      exact k3 x hx.1 fun hc' => hx.2 (by rw [TileRef.cells_obj hc', e4])
    refine ⟨_, rfl, ⟨?_, hf⟩, fin _ hf⟩
    rw [← k2]
    exact g1

/-- Hypotheses of the C23 theorems on a non-contiguous 2x3 tile. -/
def exTile : TileRef := ⟨0, ⟨2, 3, ⟨.whole, 4, 20⟩, 5⟩⟩

example : exTile.WF ∧ 1 ≤ exTile.tile.rows ∧ exTile.obj ≠ 7 ∧ exTile.is_contiguous = false ∧
    ((scheduleReduceInPlace true false true 7 (fun v => some (v.map (· + 100))) exTile
      (fun x => x.2.2)).map fun r => exTile.contents r.1) = some [104, 105, 109, 110, 114, 115] ∧
    ((scheduleSend true true false false 7 exTile (fun x => x.2.2)).map fun r => r.2) =
      some [4, 5, 9, 10, 14, 15] := by decide

/-- C23 does not cover tiles without rows: when a temporary is needed (here: another device) its leading
dimension is 0, which the tile constructor rejects: the operation aborts, although on the tile itself it
would be a no-op. -/
theorem C23_empty_tile_aborts {E : Type} (heavy isFloat rc : Bool) (tmp : Nat) {t : TileRef}
    (h : t.tile.rows = 0) (m : Addr → E) :
    scheduleSend heavy isFloat false rc tmp t m = none := by
  have : duplicateTile tmp t = none := by
    unfold duplicateTile
    rw [h]
    cases hv : MemView.alloc .whole (0 * t.tile.cols) with
    | none => rfl
    | some v =>
      rw [Option.bind_some]
      unfold Tile.create
      rw [if_neg (by omega)]
      rfl
  unfold scheduleSend withTemporaryTile
  simp [this]

example : (⟨0, ⟨0, 3, ⟨.whole, 0, 0⟩, 1⟩⟩ : TileRef).WF ∧
    (scheduleSend true true true false 7 ⟨0, ⟨0, 3, ⟨.whole, 0, 0⟩, 1⟩⟩ (fun _ => (5 : Int))).map (·.2) =
      some [] := by decide

end DLAF
