import Verif.Lemmas.BtBandApply
/- A block of reflectors is applied to all the columns of `E`; the order of the blocks. -/
namespace DLAF
open scoped Classical

theorem col_pieces {K : Type*} {qs : List (Nat × Nat)} {a e : Nat} (hch : Chain a e qs) (C0 F : Elems K)
    {body : Elems K → Nat × Nat → Option (Elems K)}
    (hb : ∀ q ∈ qs, ∀ C : Elems K, (∀ x y, q.1 ≤ y → y < q.1 + q.2 → C x y = C0 x y) →
      body C q = some fun x y => if q.1 ≤ y ∧ y < q.1 + q.2 then F x y else C x y) (C : Elems K)
    (hC : ∀ x y, a ≤ y → y < e → C x y = C0 x y) :
    forM' qs C body = some fun x y => if a ≤ y ∧ y < e then F x y else C x y := by
  induction qs generalizing a C with
  | nil =>
    have h' : a = e := hch
    subst h'
    show some C = _
    congr 1
    funext x y
    rw [if_neg (by omega)]
  | cons q qs ih =>
    obtain ⟨h1, h2⟩ := hch
    have hle := h2.le
    rw [forM'_cons, hb q List.mem_cons_self C fun x y h3 h4 => hC x y (by omega) (by omega), Option.bind_some,
      ih h2 (fun q hq => hb q (List.mem_cons_of_mem _ hq))]
    · congr 1
      funext x y
      by_cases h3 : a + q.2 ≤ y ∧ y < e
      · rw [if_pos h3, if_pos (by omega)]
      · rw [if_neg h3]
        by_cases h4 : q.1 ≤ y ∧ y < q.1 + q.2
        · rw [if_pos h4, if_pos (by omega)]
        · rw [if_neg h4, if_neg (by omega)]
    · intro x y h3 h4
      beta_reduce
      rw [if_neg (by omega), hC x y (by omega) h4]

theorem lt_ceil {b X st : Nat} (hb : 0 < b) : st < (X + b - 1) / b ↔ st * b < X := by
  rw [Nat.lt_iff_add_one_le, Nat.le_div_iff_mul_le hb, Nat.add_mul]
  omega

/-- Sizes of the blocks that are visited. -/
theorem blk_ok {cplx : Bool} {n b j st : Nat} (hb : 2 ≤ b) (hn : (if cplx then 1 else 2) < n)
    (hj : j ≤ (t2bSweeps cplx n - 1) / b) (hst : st < t2bSteps (j * b) n b) :
    BlkOK n b (j + st) j (t2bRefls cplx n b ((t2bSweeps cplx n - 1) / b) (t2bSteps (j * b) n b) j st) := by
  have hjb : j * b ≤ t2bSweeps cplx n - 1 := (Nat.le_div_iff_mul_le (by omega)).1 hj
  have hi : (j + st) * b = j * b + st * b := Nat.add_mul _ _ _
  unfold t2bSteps at hst
  unfold t2bRefls t2bSteps
  dsimp only
  by_cases h2 : j * b + 2 = n
  · rw [if_pos h2] at hst
    have h0 : st = 0 := by omega
    subst h0
    have hc : cplx = true := by
      cases cplx
      · unfold t2bSweeps at hjb; simp only [Bool.false_eq_true, if_false] at hjb hn; omega
      · rfl
    have hjl : (t2bSweeps cplx n - 1) / b = j := by
      have : t2bSweeps cplx n - 1 = j * b := by unfold t2bSweeps; rw [if_pos hc]; omega
      rw [this, Nat.mul_div_cancel _ (by omega)]
    rw [if_pos h2, hjl, if_pos ⟨hc, rfl, rfl⟩]
    refine ⟨hb, by omega, ?_, ?_, ?_, ?_⟩ <;> (rw [hi, Nat.zero_mul, Nat.add_zero] at *; omega)
  · rw [if_neg h2] at hst
    have h3 := (lt_ceil (by omega)).1 hst
    have hab : ∀ (P : Prop) [Decidable P], (if P then 0 else 1) ≤ 1 := fun P _ => by split <;> omega
    have ha := hab (cplx = true ∧ j = (t2bSweeps cplx n - 1) / b ∧ st + 1 = if j * b + 2 = n then 1 else (n - j * b - 2 + b - 1) / b)
    generalize (if cplx = true ∧ j = (t2bSweeps cplx n - 1) / b ∧
      st + 1 = if j * b + 2 = n then 1 else (n - j * b - 2 + b - 1) / b then 0 else 1) = a at ha ⊢
    clear hst hj hn hjb
    refine ⟨hb, by omega, ?_, ?_, ?_, ?_⟩
    all_goals
      generalize (j + st) * b = ib at *
      generalize j * b = jb at *
      generalize st * b = sb at *
      omega


/-- The reflectors of sweep `j b + c` that exist. -/
theorem blk_exists {cplx : Bool} {n b j st c : Nat} (hb : 2 ≤ b) (hn : (if cplx then 1 else 2) < n)
    (hj : j ≤ (t2bSweeps cplx n - 1) / b) (hst : st < t2bSteps (j * b) n b) (hc : c < b) :
    c < t2bRefls cplx n b ((t2bSweeps cplx n - 1) / b) (t2bSteps (j * b) n b) j st ↔
      j * b + c < lastSweep cplx n ∧ st < reflsOf b n (j * b + c) := by
  have hjb : j * b ≤ t2bSweeps cplx n - 1 := (Nat.le_div_iff_mul_le (by omega)).1 hj
  have hi : (j + st) * b = j * b + st * b := Nat.add_mul _ _ _
  have hlast : j = (t2bSweeps cplx n - 1) / b ↔ t2bSweeps cplx n - 1 < j * b + b := by
    have h1 : (t2bSweeps cplx n - 1) / b < j + 1 ↔ t2bSweeps cplx n - 1 < (j + 1) * b := Nat.div_lt_iff_lt_mul (by omega)
    rw [Nat.add_mul, Nat.one_mul] at h1
    omega
  have h0 : st = 0 → st * b = 0 := fun h => by rw [h, Nat.zero_mul]
  have h1 : 0 < st → b ≤ st * b := fun h => by have := Nat.mul_le_mul_right b (show 1 ≤ st from h); omega
  unfold t2bSteps at hst
  unfold t2bRefls t2bSteps lastSweep reflsOf
  dsimp only
  generalize (t2bSweeps cplx n - 1) / b = J at *
  have hS : (st < if j * b + c + 2 = n then 1 else (n - (j * b + c) - 2 + b - 1) / b) ↔
      if j * b + c + 2 = n then st = 0 else st * b < n - (j * b + c) - 2 := by
    split
    · omega
    · exact lt_ceil (by omega)
  rw [hS]
  have hD : j * b + 2 ≠ n → (st + 1 < (n - j * b - 2 + b - 1) / b ↔ (st + 1) * b < n - j * b - 2) := fun _ => lt_ceil (by omega)
  rw [Nat.add_mul, Nat.one_mul] at hD
  have h3 := (lt_ceil (X := n - j * b - 2) (st := st) (show 0 < b by omega)).1
  generalize (n - j * b - 2 + b - 1) / b = D at *
  rw [hi]
  clear hi hS
  generalize j * b = jb at *
  generalize st * b = sb at *
  unfold t2bSweeps at *
  cases cplx <;> simp only [Bool.false_eq_true, if_false, if_true, false_and, true_and] at * <;> split_ifs at * <;> omega

variable {K : Type*} [RCLike K]

theorem t2bStep_spec {E : T2BEnv K} (hl : LarftSpec E.larft) (hG : 0 < E.group) {n m b nbe jlast j st k : Nat} (hq : 0 < nbe)
    (hk : t2bRefls E.cplx n b jlast (t2bSteps (j * b) n b) j st = k) (ok : BlkOK n b (j + st) j k) (V C : Elems K) :
    ∃ C', t2bStep E n m b nbe V jlast j C st = some C' ∧
      toM n m C' = reflectorProd n (blkV n b V j st) (blkTau b V j st) k * toM n m C ∧
      ∀ x y, n ≤ x ∨ m ≤ y → C' x y = C x y := by
  obtain ⟨hb, hj, hk1, hkb, hkn, hk2⟩ := id ok
  have hceil : (j + st) + 1 < (n + b - 1) / b ↔ ((j + st) + 1) * b < n := lt_ceil (by omega)
  have hceil2 : (j + st) < (n + b - 1) / b ↔ (j + st) * b < n := lt_ceil (by omega)
  have hi1 : (j + st + 1) * b = (j + st) * b + b := by rw [Nat.add_mul, Nat.one_mul]
  obtain ⟨v, w, T, e1, e2, e3, e4, e5⟩ := computeVW_spec hl hG ok V
    (v := getB (E.junkV j st) 0 0 (min (2 * b) (n - (j + st) * b) - 1) k) (t := getB (E.junkT j st) 0 0 k k)
    (w := getB (E.junkW j st) 0 0 (min (2 * b) (n - (j + st) * b) - 1) k) ⟨rfl, rfl⟩ ⟨rfl, rfl⟩ ⟨rfl, rfl⟩
  refine ⟨fun x y => if 0 ≤ y ∧ y < m then grpsF n b V j st k E.group T C x y else C x y, ?_, ?_, ?_⟩
  · unfold t2bStep
    dsimp only
    rw [hk, if_neg (by generalize (j + st) * b = ib at *; omega), e1]
    show forM' _ _ _ = _
    refine col_pieces (pieces_zero_chain hq) C _ ?_ C fun _ _ _ _ => rfl
    intro q _ D hD
    have hF : ∀ x y, q.1 ≤ y → y < q.1 + q.2 → grpsF n b V j st k E.group T D x y = grpsF n b V j st k E.group T C x y :=
      fun x y h1 h2 => grpsF_col (fun x => hD x y h1 h2) x
    dsimp only
    by_cases hs : j + st + 1 = (n + b - 1) / b
    · rw [if_pos hs]
      have hlast : n ≤ (j + st) * b + b := by omega
      obtain ⟨e', f1, f2⟩ := applySingle_spec hG ok hlast e2 ⟨e3, e4⟩ (fun g hg => (e5 g hg).2)
        (w2 := getB (E.junkW2 j st) 0 q.1 k q.2) ⟨rfl, rfl⟩ (getB_win D ((j + st) * b) q.1 (min b (n - (j + st) * b)) q.2)
      rw [f1]
      show some _ = some _
      rw [put_win f2]
      congr 1
      funext x y
      by_cases hy : q.1 ≤ y ∧ y < q.1 + q.2
      · rw [if_pos hy, ← hF x y hy.1 hy.2]
        by_cases hx : (j + st) * b ≤ x ∧ x < (j + st) * b + min b (n - (j + st) * b)
        · rw [if_pos ⟨hx, hy⟩]
        · rw [if_neg (fun h => hx h.1), grpsF_rows hG ok (by omega)]
      · rw [if_neg (fun h => hy h.2), if_neg hy]
    · rw [if_neg hs]
      have hlast : (j + st + 1) * b < n := hceil.1 (by have := hceil2.2 (by omega); omega)
      obtain ⟨et, eb, f1, f2, f3⟩ := applyDouble_spec hG ok hlast e2 ⟨e3, e4⟩ (fun g hg => (e5 g hg).2)
        (w2 := getB (E.junkW2 j st) 0 q.1 k q.2) ⟨rfl, rfl⟩ (getB_win D ((j + st) * b) q.1 (min b (n - (j + st) * b)) q.2)
        (getB_win D ((j + st + 1) * b) q.1 (min b (n - (j + st + 1) * b)) q.2)
      rw [f1]
      show some (putB (putB D ((j + st) * b) q.1 et) ((j + st + 1) * b) q.1 eb) = some _
      rw [put_win f2, put_win f3]
      congr 1
      funext x y
      rw [hi1] at hlast ⊢
      by_cases hy : q.1 ≤ y ∧ y < q.1 + q.2
      · rw [if_pos hy, ← hF x y hy.1 hy.2]
        by_cases hx : (j + st) * b + b ≤ x ∧ x < (j + st) * b + b + min b (n - ((j + st) * b + b))
        · rw [if_pos ⟨hx, hy⟩]
        · rw [if_neg (fun h => hx h.1)]
          by_cases hx2 : (j + st) * b ≤ x ∧ x < (j + st) * b + min b (n - (j + st) * b)
          · rw [if_pos ⟨hx2, hy⟩]
          · rw [if_neg (fun h => hx2 h.1), grpsF_rows hG ok (by omega)]
      · rw [if_neg (fun h => hy h.2), if_neg (fun h => hy h.2), if_neg hy]
  · rw [← grpsF_mat hG ok (fun g hg => (e5 g hg).1)]
    ext x y
    simp only [toM]
    rw [if_pos ⟨Nat.zero_le _, y.2⟩]
  · intro x y h
    beta_reduce
    by_cases hy : 0 ≤ y ∧ y < m
    · rw [if_pos hy, grpsF_rows hG ok (by omega)]
    · rw [if_neg hy]

/-- The product of the blocks of block column `j`. -/
noncomputable def blkP (cplx : Bool) (n b : Nat) (V : Nat → Nat → K) (j : Nat) : Matrix (Fin n) (Fin n) K :=
  descP (t2bSteps (j * b) n b) fun st => reflectorProd n (blkV n b V j st) (blkTau b V j st)
    (t2bRefls cplx n b ((t2bSweeps cplx n - 1) / b) (t2bSteps (j * b) n b) j st)

theorem blkP_eq {cplx : Bool} {n b j : Nat} (hb : 2 ≤ b) (hn : (if cplx then 1 else 2) < n)
    (hj : j ≤ (t2bSweeps cplx n - 1) / b) (V : Nat → Nat → K) :
    ascP b (fun c => ascP (t2bSteps (j * b) n b) fun st =>
      if j * b + c < lastSweep cplx n ∧ st < reflsOf b n (j * b + c) then hht n b V (j * b + c) st else 1) = blkP cplx n b V j := by
  rw [block_reorder]
  · unfold blkP
    refine descP_congr fun st hst => ?_
    have ok := blk_ok hb hn hj hst
    rw [ascP_one (k := t2bRefls cplx n b ((t2bSweeps cplx n - 1) / b) (t2bSteps (j * b) n b) j st) ok.hkb]
    · unfold reflectorProd
      refine ascP_congr fun c hc => ?_
      have hcb : c < b := Nat.lt_of_lt_of_le hc ok.hkb
      rw [if_pos ((blk_exists hb hn hj hst hcb).1 hc)]
      have h1 : (j * b + c) / b = j := by rw [Nat.mul_comm, Nat.mul_add_div (by omega), Nat.div_eq_of_lt hcb, Nat.add_zero]
      unfold hht
      rw [h1]
      rfl
    · intro c hc hcb
      rw [if_neg]
      rw [← blk_exists hb hn hj hst hcb]
      omega
  · intro c hc c' hc' st hst st' hst'
    split
    · split
      · refine reflector_commute fun x _ => ?_
        have h3 := blkV_val (n := n) (b := b) (j := j) (st := st) hc V x
        have h4 := blkV_val (n := n) (b := b) (j := j) (st := st') (c := c') (by omega) V x
        unfold blkV at h3 h4
        have hle : (j + st') * b + b ≤ (j + st) * b := by
          have := Nat.mul_le_mul_right b (show j + st' + 1 ≤ j + st by omega)
          rwa [Nat.add_mul, Nat.one_mul] at this
        rw [h3, h4]
        generalize (j + st') * b = ib' at *
        generalize (j + st) * b = ib at *
        by_cases hx : x < ib + 1 + c
        · rw [if_pos hx]; exact Or.inl rfl
        · rw [if_neg (show ¬ x < ib' + 1 + c' by omega), if_neg (show ¬ x = ib' + 1 + c' by omega),
            if_neg (show ¬ x < ib' + 1 + c' + min b (n - (ib' + 1 + c')) by omega)]
          exact Or.inr rfl
      · exact Commute.one_right _
    · exact Commute.one_left _

/-- `Q`, block column after block column. -/
theorem hhQ_blocks {cplx : Bool} {n b : Nat} (hb : 2 ≤ b) (hn : (if cplx then 1 else 2) < n) (V : Nat → Nat → K) :
    hhQ cplx n b V = ascP ((t2bSweeps cplx n - 1) / b + 1) (blkP cplx n b V) := by
  have hS : lastSweep cplx n ≤ ((t2bSweeps cplx n - 1) / b + 1) * b := by
    have h1 : t2bSweeps cplx n - 1 < ((t2bSweeps cplx n - 1) / b + 1) * b := by
      have h2 := Nat.div_add_mod (t2bSweeps cplx n - 1) b
      have h3 := Nat.mod_lt (t2bSweeps cplx n - 1) (show 0 < b by omega)
      rw [Nat.add_mul, Nat.one_mul, Nat.mul_comm]
      omega
    have h4 : lastSweep cplx n = t2bSweeps cplx n := rfl
    omega
  have h1 : hhQ cplx n b V = ascP (((t2bSweeps cplx n - 1) / b + 1) * b)
      (fun s => if s < lastSweep cplx n then hhSweep n b V s (reflsOf b n s) else 1) := by
    rw [ascP_one hS fun i h _ => if_neg (by omega)]
    unfold hhQ hhSweeps
    exact ascP_congr fun i hi => (if_pos hi).symm
  rw [h1, ← ascP_mul]
  refine ascP_congr fun j hj => ?_
  rw [← blkP_eq hb hn (by omega)]
  refine ascP_congr fun c hc => ?_
  by_cases hs : j * b + c < lastSweep cplx n
  · rw [if_pos hs, ascP_one (k := reflsOf b n (j * b + c))]
    · unfold hhSweep
      exact ascP_congr fun st hst => (if_pos ⟨hs, hst⟩).symm
    · unfold reflsOf t2bSteps
      have hm : (n - (j * b + c) - 2 + b - 1) / b ≤ (n - j * b - 2 + b - 1) / b := Nat.div_le_div_right (by omega)
      have hp : j * b + 2 < n → 0 < (n - j * b - 2 + b - 1) / b := fun h => Nat.div_pos (by omega) (by omega)
      split_ifs with h1 h2 <;> (unfold lastSweep at hs; cases cplx <;> simp only [Bool.false_eq_true, if_false, if_true] at hs <;> omega)
    · intro st h _
      rw [if_neg (by omega)]
  · rw [if_neg hs, ascP_one (k := 0) (Nat.zero_le _) fun i _ _ => if_neg fun h => hs h.1]
    rfl

/-- The whole loop. -/
theorem t2b_run {E : T2BEnv K} (hl : LarftSpec E.larft) (hG : 0 < E.group) {n m b nbe : Nat} (hq : 0 < nbe) (hb : 2 ≤ b)
    (hn : (if E.cplx then 1 else 2) < n) (V : Elems K) : ∀ J, J ≤ (t2bSweeps E.cplx n - 1) / b + 1 → ∀ C : Elems K,
    ∃ C', forM' (downto J 0) C (fun C j =>
        forM' (upto 0 (t2bSteps (j * b) n b)) C (t2bStep E n m b nbe V ((t2bSweeps E.cplx n - 1) / b) j)) = some C' ∧
      toM n m C' = ascP J (blkP E.cplx n b V) * toM n m C ∧ ∀ x y, n ≤ x ∨ m ≤ y → C' x y = C x y := by
  intro J
  induction J with
  | zero => intro _ C; exact ⟨C, rfl, by rw [ascP_zero, Matrix.one_mul], fun _ _ _ => rfl⟩
  | succ J ih =>
    intro hJ C
    have hdown : downto (J + 1) 0 = J :: downto J 0 := by
      simp only [downto, upto, Nat.sub_zero, List.range'_concat, List.reverse_append]
      simp
    rw [hdown, forM'_cons]
    have step : ∀ S, S ≤ t2bSteps (J * b) n b → ∃ C', forM' (upto 0 S) C (t2bStep E n m b nbe V ((t2bSweeps E.cplx n - 1) / b) J) = some C' ∧
        toM n m C' = descP S (fun st => reflectorProd n (blkV n b V J st) (blkTau b V J st)
          (t2bRefls E.cplx n b ((t2bSweeps E.cplx n - 1) / b) (t2bSteps (J * b) n b) J st)) * toM n m C ∧
        ∀ x y, n ≤ x ∨ m ≤ y → C' x y = C x y := by
      intro S
      induction S with
      | zero => intro _; exact ⟨C, rfl, by rw [descP, Matrix.one_mul], fun _ _ _ => rfl⟩
      | succ S ihS =>
        intro hS
        obtain ⟨D, d1, d2, d3⟩ := ihS (by omega)
        obtain ⟨D', f1, f2, f3⟩ := t2bStep_spec (m := m) hl hG hq rfl (blk_ok hb hn (show J ≤ _ by omega) (show S < _ by omega)) V D
        refine ⟨D', ?_, ?_, fun x y h => (f3 x y h).trans (d3 x y h)⟩
        · rw [upto_succ (Nat.zero_le _), forM'_append, d1, Option.bind_some, forM'_cons, f1, Option.bind_some, forM'_nil]
        · rw [f2, d2, descP, Matrix.mul_assoc]
    obtain ⟨D, d1, d2, d3⟩ := step _ (Nat.le_refl _)
    obtain ⟨D', f1, f2, f3⟩ := ih (by omega) D
    refine ⟨D', ?_, ?_, fun x y h => (f3 x y h).trans (d3 x y h)⟩
    · rw [d1, Option.bind_some, f1]
    · rw [f2, d2, ascP_succ, Matrix.mul_assoc]
      rfl

end DLAF
