import Verif.Model.TFactor
import Verif.Lemmas.Threads
import Verif.Lemmas.Tasks
import Verif.Lemmas.LapackExists
import Verif.Spec.Householder
import Mathlib.Algebra.Star.BigOperators
import Mathlib.Tactic.Abel
/- The triangular factor. -/
namespace DLAF
variable {K : Type*} [Field K] [StarRing K]

/-! ### splitting of the work -/

theorem ceilDivN_le {n d m : Nat} (hd : 0 < d) (h : n ≤ m * d) : ceilDivN n d ≤ m := by
  unfold ceilDivN
  rw [Nat.div_le_iff_le_mul_add_pred hd, Nat.mul_comm]
  omega

theorem le_ceilDivN_mul (n : Nat) {d : Nat} (hd : 0 < d) : n ≤ ceilDivN n d * d := by
  unfold ceilDivN
  have := Nat.div_add_mod (n + d - 1) d
  have := Nat.mod_lt (n + d - 1) hd
  rw [Nat.mul_comm]
  omega

theorem ceilDivN_pos {n d : Nat} (hn : 0 < n) (hd : 0 < d) : 0 < ceilDivN n d := by
  have := le_ceilDivN_mul n hd
  rcases Nat.eq_zero_or_pos (ceilDivN n d) with h | h
  · rw [h] at this; omega
  · exact h

/-- At least one worker, no more than available; the batches cover the tiles; no worker is idle. -/
theorem split_spec {avail n : Nat} (ha : 0 < avail) (hn : 0 < n) :
    0 < (splitTFactorWork avail n).1 ∧ (splitTFactorWork avail n).1 ≤ avail ∧ 0 < (splitTFactorWork avail n).2 ∧
      n ≤ (splitTFactorWork avail n).1 * (splitTFactorWork avail n).2 ∧
      ((splitTFactorWork avail n).1 - 1) * (splitTFactorWork avail n).2 < n := by
  obtain ⟨c, hc⟩ : ∃ c, c = clampN (ceilDivN n 1) 1 avail := ⟨_, rfl⟩
  have h1 : 0 < c ∧ c ≤ avail := by
    rw [hc]; unfold clampN
    split
    · omega
    · split <;> omega
  obtain ⟨b, hb⟩ : ∃ b, b = ceilDivN n c := ⟨_, rfl⟩
  have hb0 : 0 < b := by rw [hb]; exact ceilDivN_pos hn h1.1
  have hb1 : n ≤ b * c := by rw [hb]; exact le_ceilDivN_mul n h1.1
  have hw : 0 < ceilDivN n b := ceilDivN_pos hn hb0
  have e : splitTFactorWork avail n = (ceilDivN n b, b) := by
    unfold splitTFactorWork
    rw [← hc, ← hb]
    dsimp only
    rw [Nat.max_eq_right hw]
  rw [e]
  refine ⟨hw, ?_, hb0, le_ceilDivN_mul n hb0, ?_⟩
  · exact (ceilDivN_le hb0 (by rw [Nat.mul_comm]; exact hb1)).trans h1.2
  · by_contra hcon
    have h2 : ceilDivN n b ≤ ceilDivN n b - 1 := ceilDivN_le hb0 (by simpa using hcon)
    omega

omit [Field K] [StarRing K] in
theorem workerTiles_all (tiles : List (Blk K)) (b : Nat) : ∀ n : Nat,
    (List.range n).flatMap (fun w => workerTiles tiles b w) = tiles.take (n * b) := by
  intro n
  induction n with
  | zero => simp
  | succ n ih =>
    rw [List.range_succ, List.flatMap_append, ih]
    simp only [List.flatMap_cons, List.flatMap_nil, List.append_nil, workerTiles]
    rw [Nat.succ_mul, List.take_add]

/-! ### the workers -/

omit [Field K] [StarRing K] in
theorem onSlot_comm {v w : Nat} (h : v ≠ w) (f g : Blk K → Blk K) (s : Slots K) :
    onSlot v f (onSlot w g s) = onSlot w g (onSlot v f s) := by
  funext u
  unfold onSlot
  rw [if_neg h, if_neg (Ne.symm h)]
  split <;> split <;> first | rfl | (exfalso; omega)

omit [Field K] [StarRing K] in
theorem runList_onSlot (w : Nat) (fs : List (Blk K → Blk K)) (s : Slots K) :
    Bulk.runList (fs.map (onSlot w)) s = fun v => if v = w then fs.foldl (fun b f => f b) (s w) else s v := by
  induction fs generalizing s with
  | nil =>
    funext v
    simp only [List.map_nil, Bulk.runList_nil, List.foldl_nil]
    split
    · rename_i h; rw [h]
    · rfl
  | cons f fs ih =>
    rw [List.map_cons, Bulk.runList_cons, ih]
    funext v
    simp only [onSlot, List.foldl_cons, if_true]
    split <;> rfl

omit [Field K] [StarRing K] in
theorem runAll_onSlot (fs : Nat → List (Blk K → Blk K)) (n : Nat) (s : Slots K) :
    Bulk.runAll (fun w => (fs w).map (onSlot w)) n s =
      fun v => if v < n then (fs v).foldl (fun b f => f b) (s v) else s v := by
  induction n with
  | zero => funext v; simp [Bulk.runAll]
  | succ n ih =>
    rw [Bulk.runAll, ih, runList_onSlot]
    funext v
    by_cases h : v = n
    · subst h
      rw [if_pos rfl, if_neg (by omega), if_pos (by omega)]
    · rw [if_neg h]
      by_cases h2 : v < n
      · rw [if_pos h2, if_pos (by omega)]
      · rw [if_neg h2, if_neg (by omega)]

omit [Field K] [StarRing K] in
theorem apart_onSlot (fs : Nat → List (Blk K → Blk K)) (n : Nat) : Bulk.Apart n (fun w => (fs w).map (onSlot w)) := by
  intro v _ w _ hne a ha b hb s
  obtain ⟨f, _, rfl⟩ := List.mem_map.1 ha
  obtain ⟨g, _, rfl⟩ := List.mem_map.1 hb
  exact onSlot_comm hne f g s

/-- Whatever the interleaving of the workers, the bulk ends in the state of `gemvBulk`. -/
theorem gemv_oneResult (tiles : List (Blk K)) (taus : Blk K) (k nw batch : Nat) (s : Slots K) :
    Bulk.OneResult (gemvCode tiles taus k nw batch) nw 0 s (gemvBulk tiles taus k nw batch s) := by
  refine Bulk.Seq.one (m := _) (.phase rfl (apart_onSlot _ _) (.phase rfl ?_ (.stop rfl)))
  intro v _ w _ hne a ha b hb
  dsimp only at ha hb
  split at ha
  · split at hb
    · omega
    · simp at hb
  · simp at ha

/-! ### columns -/

/-- `-T(j,j) V(:,i)ᴴ V(:,j)` -/
theorem gemvCol_fold (v t : Blk K) (n : Nat) :
    ((List.range n).foldl (gemvCol v) t) = ⟨t.rows, t.cols, fun i c =>
      if c < n ∧ i < c then -(t.e c c) * ∑ r ∈ Finset.range v.rows, star (v.e r i) * v.e r c + t.e i c else t.e i c⟩ := by
  induction n with
  | zero => cases t; simp
  | succ n ih =>
    rw [List.range_succ, List.foldl_append, ih]
    simp only [List.foldl_cons, List.foldl_nil, gemvCol, Blk.mk.injEq, true_and]
    funext i c
    by_cases h : c = n
    · subst h
      by_cases h2 : i < c
      · simp [h2]
      · simp [h2]
    · by_cases h2 : c < n
      · simp [h, h2, show c < n + 1 by omega]
      · simp [h, h2, show ¬ c < n + 1 by omega]

theorem loopGemv_eq (v t : Blk K) : loopGemv v t = ⟨t.rows, t.cols, fun i c =>
      if c < t.cols ∧ i < c then -(t.e c c) * ∑ r ∈ Finset.range v.rows, star (v.e r i) * v.e r c + t.e i c
      else t.e i c⟩ := gemvCol_fold v t t.cols

/-- The inner products of the columns `i` and `j` of some tiles. -/
def gram (tiles : List (Blk K)) (i j : Nat) : K :=
  (tiles.map fun v => ∑ r ∈ Finset.range v.rows, star (v.e r i) * v.e r j).sum

theorem gram_nil (i j : Nat) : gram ([] : List (Blk K)) i j = 0 := rfl
theorem gram_cons (v : Blk K) (l : List (Blk K)) (i j : Nat) :
    gram (v :: l) i j = ∑ r ∈ Finset.range v.rows, star (v.e r i) * v.e r j + gram l i j := by simp [gram]
theorem gram_append (l l' : List (Blk K)) (i j : Nat) : gram (l ++ l') i j = gram l i j + gram l' i j := by
  simp [gram]

theorem gemv_tiles (tiles : List (Blk K)) (t : Blk K) :
    (tiles.map loopGemv).foldl (fun b f => f b) t = ⟨t.rows, t.cols, fun i c =>
      if c < t.cols ∧ i < c then -(t.e c c) * gram tiles i c + t.e i c else t.e i c⟩ := by
  induction tiles generalizing t with
  | nil => cases t; simp [gram_nil]
  | cons v l ih =>
    rw [List.map_cons, List.foldl_cons, ih, loopGemv_eq]
    simp only [Blk.mk.injEq, true_and, gram_cons]
    funext i c
    by_cases h : c < t.cols ∧ i < c
    · simp only [if_pos h]
      rw [if_neg (by omega)]
      ring
    · simp only [if_neg h]

/-- What a worker has computed at the barrier. -/
theorem gemvActs_run (tiles : List (Blk K)) (taus : Blk K) (k batch w : Nat) (t : Blk K) :
    (gemvActs tiles taus k batch w).foldl (fun b f => f b) t = ⟨k, k, fun i c =>
      if i = c ∧ c < k then taus.e c 0
      else if c < k ∧ i < c then -(taus.e c 0) * gram (workerTiles tiles batch w) i c else 0⟩ := by
  unfold gemvActs
  rw [List.foldl_cons, List.foldl_cons, gemv_tiles]
  simp only [setDiag, Blk.zero, Blk.mk.injEq, true_and]
  funext i c
  by_cases h : c < k ∧ i < c
  · simp [h.1, h.2, show i ≠ c by omega]
  · rw [if_neg h]
    by_cases h2 : i = c ∧ c < k
    · rw [if_pos h2, if_pos h2]
    · rw [if_neg h2, if_neg h2, if_neg h]

omit [StarRing K] in
theorem addSlots (ws : List Nat) (h0 : 0 ∉ ws) (s : Slots K) :
    Bulk.runList (ws.map addSlot) s = fun v => if v = 0 then ⟨(s 0).rows, (s 0).cols, fun i c =>
      (s 0).e i c + (ws.map fun w => (s w).e i c).sum⟩ else s v := by
  induction ws generalizing s with
  | nil =>
    funext v
    simp only [List.map_nil, Bulk.runList_nil, List.sum_nil, add_zero]
    split
    · rename_i h; rw [h]
    · rfl
  | cons w ws ih =>
    have hw : w ≠ 0 := fun h => h0 (by rw [h]; exact List.mem_cons_self)
    rw [List.map_cons, Bulk.runList_cons, ih fun h => h0 (List.mem_cons_of_mem _ h)]
    funext v
    simp only [addSlot, onSlot, if_true]
    split
    · simp only [Blk.mk.injEq, true_and]
      funext i c
      simp only [List.map_cons, List.sum_cons]
      have : (ws.map fun w' => ((if w' = 0 then (⟨(s 0).rows, (s 0).cols, fun i c => (s 0).e i c + 1 * (s w).e i c⟩ : Blk K)
          else s w').e i c)) = ws.map fun w' => (s w').e i c := by
        refine List.map_congr_left fun w' hw' => ?_
        rw [if_neg]
        intro h
        exact h0 (List.mem_cons_of_mem _ (h ▸ hw'))
      rw [this]
      ring
    · rfl

theorem upto_one_range (n : Nat) : List.range (n + 1) = 0 :: upto 1 (n + 1) := by
  simp [upto, List.range_eq_range', List.range'_succ]

/-- The result of the bulk in `tile_t`. -/
theorem gemvBulk_spec (tiles : List (Blk K)) (taus : Blk K) (k nw batch : Nat) (hnw : 0 < nw)
    (hcov : tiles.length ≤ nw * batch) (s : Slots K) :
    ∃ f, gemvBulk tiles taus k nw batch s 0 = ⟨k, k, f⟩ ∧
      (∀ c < k, ∀ i < c, f i c = -(taus.e c 0) * gram tiles i c) ∧ ∀ c < k, ∀ i, c < i → f i c = 0 := by
  obtain ⟨n, rfl⟩ : ∃ n, nw = n + 1 := ⟨nw - 1, by omega⟩
  unfold gemvBulk
  rw [runAll_onSlot]
  have hcol : ∀ s : Slots K, Bulk.runAll (fun w => if w = 0 then (upto 1 (n + 1)).map addSlot else []) (n + 1) s =
      Bulk.runList ((upto 1 (n + 1)).map addSlot) s := by
    intro s
    have : ∀ m, Bulk.runAll (fun w => if w = 0 then (upto 1 (n + 1)).map addSlot else []) (m + 1) s =
        Bulk.runList ((upto 1 (n + 1)).map addSlot) s := by
      intro m
      induction m with
      | zero => rfl
      | succ m ih => rw [Bulk.runAll, ih, if_neg (by omega), Bulk.runList_nil]
    exact this n
  rw [hcol, addSlots _ (by simp)]
  simp only [gemvActs_run, if_pos, Nat.succ_pos]
  refine ⟨_, rfl, ?_, ?_⟩
  · intro c hc i hi
    rw [if_neg (by omega), if_pos ⟨hc, hi⟩]
    have h1 : ((upto 1 (n + 1)).map fun w => (if w < n + 1 then (⟨k, k, fun i c =>
        if i = c ∧ c < k then taus.e c 0
        else if c < k ∧ i < c then -(taus.e c 0) * gram (workerTiles tiles batch w) i c else 0⟩ : Blk K) else s w).e i c) =
        (upto 1 (n + 1)).map fun w => -(taus.e c 0) * gram (workerTiles tiles batch w) i c := by
      refine List.map_congr_left fun w hw => ?_
      rw [mem_upto] at hw
      rw [if_pos hw.2]
      dsimp only
      rw [if_neg (by omega), if_pos ⟨hc, hi⟩]
    rw [h1]
    have h2 : tiles = (List.range (n + 1)).flatMap (fun w => workerTiles tiles batch w) := by
      rw [workerTiles_all tiles batch, List.take_of_length_le hcov]
    have h3 : ∀ l : List Nat, gram (l.flatMap fun w => workerTiles tiles batch w) i c =
        (l.map fun w => gram (workerTiles tiles batch w) i c).sum := by
      intro l
      induction l with
      | nil => rfl
      | cons a l ih => rw [List.flatMap_cons, gram_append, ih, List.map_cons, List.sum_cons]
    conv_rhs => rw [h2, h3, upto_one_range, List.map_cons, List.sum_cons]
    rw [List.sum_map_mul_left]
    ring
  · intro c hc i hi
    rw [if_neg (by omega), if_neg (by omega), zero_add]
    refine List.sum_eq_zero fun x hx => ?_
    obtain ⟨w, hw, rfl⟩ := List.mem_map.1 hx
    rw [mem_upto] at hw
    rw [if_pos hw.2]
    dsimp only
    rw [if_neg (by omega), if_neg (by omega)]

/-! ### the second step -/

omit [StarRing K] in
theorem trmvCol_other (t : Blk K) {j c : Nat} (h : c ≠ j) (i : Nat) : (trmvCol t j).e i c = t.e i c := by
  simp [trmvCol, h]

omit [StarRing K] in
/-- The recurrence of the columns. -/
theorem loopTrmv_spec (t : Blk K) (n : Nat) :
    ∃ f, (List.range n).foldl trmvCol t = ⟨t.rows, t.cols, f⟩ ∧ (∀ i c, ¬ (c < n ∧ i < c) → f i c = t.e i c) ∧
      ∀ c < n, ∀ i < c, f i c = ∑ l ∈ Finset.range c, (if i ≤ l then f i l else 0) * t.e l c := by
  induction n with
  | zero => exact ⟨t.e, by cases t; rfl, fun _ _ _ => rfl, fun c hc => by omega⟩
  | succ n ih =>
    obtain ⟨f, h1, h2, h3⟩ := ih
    rw [List.range_succ, List.foldl_append, h1]
    refine ⟨(trmvCol ⟨t.rows, t.cols, f⟩ n).e, rfl, ?_, ?_⟩
    · intro i c h
      by_cases hc : c = n
      · simp only [trmvCol]
        rw [if_neg (by omega), h2 i c (by omega)]
      · rw [trmvCol_other _ hc]
        exact h2 i c (by omega)
    · intro c hc i hi
      have e : ∀ l, l < c → (trmvCol ⟨t.rows, t.cols, f⟩ n).e i l = f i l := fun l hl => trmvCol_other _ (by omega) i
      have e2 : ∑ l ∈ Finset.range c, (if i ≤ l then (trmvCol ⟨t.rows, t.cols, f⟩ n).e i l else 0) * t.e l c =
          ∑ l ∈ Finset.range c, (if i ≤ l then f i l else 0) * t.e l c := by
        refine Finset.sum_congr rfl fun l hl => ?_
        rw [e l (Finset.mem_range.1 hl)]
      rw [e2]
      by_cases hcn : c = n
      · subst hcn
        simp only [trmvCol]
        rw [if_pos ⟨trivial, hi⟩]
        refine Finset.sum_congr rfl fun l hl => ?_
        rw [h2 l c (by omega)]
      · rw [trmvCol_other _ hcn]
        exact h3 c (by omega) i hi

/-- A T factor for the inner products `G`. -/
structure IsTFactor (k : Nat) (tau : Nat → K) (G : Nat → Nat → K) (F : Nat → Nat → K) : Prop where
  diag : ∀ c < k, F c c = tau c
  low : ∀ c < k, ∀ i < k, c < i → F i c = 0
  col : ∀ c < k, ∀ i < c, F i c = -(tau c) * ∑ l ∈ Finset.range c, F i l * G l c

theorem copyDiagTrmv_spec {taus t : Blk K} {G : Nat → Nat → K}
    (h1 : ∀ c < t.cols, ∀ i < c, t.e i c = -(taus.e c 0) * G i c) (h2 : ∀ c < t.cols, ∀ i, c < i → t.e i c = 0) :
    ∃ f, copyDiagTrmv taus t = ⟨t.rows, t.cols, f⟩ ∧ IsTFactor t.cols (fun c => taus.e c 0) G f := by
  obtain ⟨f, h3, h4, h5⟩ := loopTrmv_spec (setDiag t.cols taus t) t.cols
  have hlow : ∀ c < t.cols, ∀ i, c < i → f i c = 0 := by
    intro c hc i hi
    rw [h4 i c (by omega)]
    simp only [setDiag]
    rw [if_neg (by omega), h2 c hc i hi]
  refine ⟨f, h3, ?_, fun c hc i _ hi => hlow c hc i hi, ?_⟩
  · intro c hc
    rw [h4 c c (by omega)]
    simp [setDiag, hc]
  · intro c hc i hi
    rw [h5 c hc i hi, Finset.mul_sum]
    refine Finset.sum_congr rfl fun l hl => ?_
    rw [Finset.mem_range] at hl
    have e : (setDiag t.cols taus t).e l c = -(taus.e c 0) * G l c := by
      simp only [setDiag]
      rw [if_neg (by omega), h1 c hc l hl]
    rw [e]
    by_cases h : i ≤ l
    · rw [if_pos h]; ring
    · rw [if_neg h, hlow l (by omega) i (by omega)]; ring

/-! ### the product of the reflectors -/

omit [StarRing K] in
theorem sum2_succ (j : Nat) (f : Nat → Nat → K) : ∑ a ∈ Finset.range (j + 1), ∑ b ∈ Finset.range (j + 1), f a b =
    ∑ a ∈ Finset.range j, ∑ b ∈ Finset.range j, f a b + ∑ a ∈ Finset.range j, f a j + (∑ b ∈ Finset.range j, f j b + f j j) := by
  rw [Finset.sum_range_succ, Finset.sum_range_succ (f := fun b => f j b)]
  congr 1
  rw [← Finset.sum_add_distrib]
  exact Finset.sum_congr rfl fun a _ => Finset.sum_range_succ _ _

theorem reflectorProd_succ (m : Nat) (V : Nat → Nat → K) (tau : Nat → K) (k : Nat) :
    reflectorProd m V tau (k + 1) = reflectorProd m V tau k * reflector m (fun x => V x k) (tau k) := by
  simp [reflectorProd, List.range_succ]

/-- `I - V F Vᴴ`, elementwise. -/
theorem tfactor_prod {m k : Nat} {V : Nat → Nat → K} {tau : Nat → K} {F : Nat → Nat → K}
    (h : IsTFactor k tau (fun i j => ∑ x ∈ Finset.range m, star (V x i) * V x j) F) : ∀ j ≤ k, ∀ x y : Fin m,
    reflectorProd m V tau j x y = (1 : Matrix (Fin m) (Fin m) K) x y -
      ∑ a ∈ Finset.range j, ∑ b ∈ Finset.range j, V x a * F a b * star (V y b) := by
  intro j
  induction j with
  | zero => intro _ x y; simp [reflectorProd]
  | succ j ih =>
    intro hj x y
    rw [reflectorProd_succ, reflector, mul_sub, mul_one, Matrix.sub_apply, ih (by omega), mul_smul_comm, Matrix.smul_apply,
      Matrix.mul_vecMulVec, Matrix.vecMulVec_apply, Matrix.mulVec, dotProduct, sum2_succ]
    have e1 : ∑ z : Fin m, reflectorProd m V tau j x z * V z j =
        V x j - ∑ a ∈ Finset.range j, ∑ b ∈ Finset.range j, V x a * F a b * ∑ z ∈ Finset.range m, star (V z b) * V z j := by
      have : ∀ z : Fin m, reflectorProd m V tau j x z * V z j = (1 : Matrix (Fin m) (Fin m) K) x z * V z j -
          ∑ a ∈ Finset.range j, ∑ b ∈ Finset.range j, V x a * F a b * (star (V z b) * V z j) := by
        intro z
        rw [ih (by omega), sub_mul, Finset.sum_mul]
        congr 1
        refine Finset.sum_congr rfl fun a _ => ?_
        rw [Finset.sum_mul]
        exact Finset.sum_congr rfl fun b _ => by ring
      rw [Finset.sum_congr rfl fun z _ => this z, Finset.sum_sub_distrib]
      congr 1
      · have := congrFun (Matrix.one_mulVec (fun z : Fin m => V z j)) x
        simpa [Matrix.mulVec, dotProduct] using this
      · rw [Finset.sum_comm]
        refine Finset.sum_congr rfl fun a _ => ?_
        rw [Finset.sum_comm]
        refine Finset.sum_congr rfl fun b _ => ?_
        rw [← Finset.mul_sum, Finset.sum_range (fun z => star (V z b) * V z j)]
    have e2 : ∑ b ∈ Finset.range j, V x j * F j b * star (V y b) = 0 := by
      refine Finset.sum_eq_zero fun b hb => ?_
      rw [Finset.mem_range] at hb
      rw [h.low b (by omega) j (by omega) hb]; ring
    have e3 : ∑ a ∈ Finset.range j, V x a * F a j * star (V y j) = -(tau j) *
        (∑ a ∈ Finset.range j, ∑ b ∈ Finset.range j, V x a * F a b * ∑ z ∈ Finset.range m, star (V z b) * V z j) *
          star (V y j) := by
      rw [Finset.mul_sum, Finset.sum_mul]
      refine Finset.sum_congr rfl fun a ha => ?_
      rw [Finset.mem_range] at ha
      rw [h.col j (by omega) a ha, Finset.mul_sum, Finset.mul_sum, Finset.mul_sum, Finset.sum_mul, Finset.sum_mul]
      exact Finset.sum_congr rfl fun b _ => by ring
    rw [e1, e2, e3, h.diag j (by omega), smul_eq_mul]
    ring

/-- The block reflector is the product of its reflectors. -/
theorem tfactor_matrix {m k : Nat} {V : Nat → Nat → K} {tau : Nat → K} {F : Nat → Nat → K}
    (h : IsTFactor k tau (fun i j => ∑ x ∈ Finset.range m, star (V x i) * V x j) F) :
    1 - toM m k V * toM k k F * (toM m k V).conjTranspose = reflectorProd m V tau k := by
  ext x y
  rw [tfactor_prod h k (le_refl _), Matrix.sub_apply]
  congr 1
  rw [Matrix.mul_apply]
  simp only [Matrix.mul_apply, Matrix.conjTranspose_apply, toM]
  rw [← Finset.sum_range (fun b => (∑ a : Fin k, V x a * F a b) * star (V y b)), Finset.sum_comm]
  refine Finset.sum_congr rfl fun b _ => ?_
  rw [← Finset.sum_range (fun a => V x a * F a b), Finset.sum_mul]

end DLAF
