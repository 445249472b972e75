import Mathlib.Tactic.IntervalCases
import Mathlib.Tactic.NormNum
import Verif.Lemmas.MultEvecs
import Verif.Props.DistPartition
/-!
# C69: the eigenvectors of the distributed merge

For every grid, source process, tile size, position and size of the sub-problem, and whatever the work spaces hold elsewhere.
-/
namespace DLAF
variable {K : Type*}

/-- What the merge guarantees about `E1` (the eigenvectors of the two sub-problems, the columns grouped by type) and `E2` (the eigenvectors of the rank-one problem):
upper columns of `E1` are zero in the lower rows, lower columns in the upper rows; the deflated rows of the non-deflated columns of `E2` are zero. -/
structure MergeBlocks [Zero K] (off n n1 : Nat) (cs : List ColType) (A1 A2 : Nat → Nat → K) : Prop where
  upper : ∀ i < n, n1 ≤ i → ∀ j, cs[j]? = some .UpperHalf → A1 (off + i) (off + j) = 0
  lower : ∀ i < n1, ∀ j, cs[j]? = some .LowerHalf → A1 (off + i) (off + j) = 0
  defl : ∀ l < n, cs[l]? = some .Deflated → ∀ j < n, cs[j]? ≠ some .Deflated → A2 (off + l) (off + j) = 0

variable [Field K] [StarRing K] [DecidableEq K]

/-- The copy of the columns of the window from `k`. -/
def copyCols (P : Params2) (r : Coord2) (off n k : Nat) (s : DSt K × EvSt K) : DSt K × EvSt K :=
  (s.1, { s.2 with e0 := Ref.put (P.on r) ⟨off, (off + k : Nat)⟩ ⟨n, (n - k : Nat)⟩ s.2.e0 (Ref.tiles (P.on r) ⟨off, (off + k : Nat)⟩ ⟨n, (n - k : Nat)⟩ s.2.e1) })

theorem multEvecs_runs {P : Params2} (hP : SquareDist P) (dbg : Bool) {off n n1 n2 a b c : Nat} (hn : n = n1 + n2) (hoff : (off + n : Nat) ≤ P.row.size)
    (hab : a ≤ c) (hb : b ≤ n) (hc : c ≤ n) (klc : Coord2 → Nat) {A0 A1 A2 : Nat → Nat → K} {g : Glob (DSt K × EvSt K) (Blk K)} (hg : EvHolds P A0 A1 A2 g) :
    ∃ g', Runs (fun r => if r ∈ P.ranks then distMultEvecs dbg (P.on r) off n n1 n2 (klc r) a b c else []) g g' ∧ Clean P.ranks g' ∧
      ∀ r ∈ P.ranks, (g'.st r).2.e1 = (g.st r).2.e1 ∧ (g'.st r).2.e2 = (g.st r).2.e2 ∧
        HoldsLoc P r (g'.st r).2.e0 fun x y =>
          if (off ≤ x ∧ x < off + n) ∧ (off ≤ y ∧ y < off + n) then
            if klc r ≤ (P.col.sub off n).localPos ((y - off : Nat) : Int) then A1 x y
            else if y - off < c then
              if x - off < n1 then ∑ l ∈ Finset.range b, A1 x (off + l) * A2 (off + l) y
              else ∑ l ∈ Finset.range (c - a), A1 x (off + a + l) * A2 (off + a + l) y
            else A0 x y
          else A0 x y := by
  have vr : P.row.Valid := hP.row.valid
  have vc : P.col.Valid := hP.col.valid
  have hsz := hP.size
  obtain ⟨g1, r1, H1, u1⟩ := gemmRef_runs hP dbg (R := off) (C := off) (L := off) (m := n1) (n := c) (k := b) (by omega) (by omega) (by omega) hg
  obtain ⟨g2, r2, H2, u2⟩ := gemmRef_runs hP dbg (R := off + n1) (C := off) (L := off + a) (m := n2) (n := c) (k := c - a) (by omega) (by omega) (by omega) H1
  -- the copy
  have hk : ∀ r ∈ P.ranks, (klc r : Int) < ((P.col.onRank r.col).sub off n).dist.localSize → ∃ k : Nat,
      ((P.col.onRank r.col).sub off n).dist.global_element_from_local_element (klc r) = k ∧ k < n ∧
      ∀ j : Nat, j < n → (P.col.sub off n).owner j = r.col → ((klc r : Int) ≤ (P.col.sub off n).localPos j ↔ k ≤ j) := by
    intro r hr hlt
    have vs := (Params2.at_valid vr vc hr).2.sub (o := off) (n := n) (by omega) (by omega)
    obtain ⟨q1, q2, q3, q4⟩ := C03_local_global_local vs (e := klc r) (by omega) hlt
    rw [vs.localPos_here q3 q2] at q1
    obtain ⟨k, hk⟩ : ∃ k : Nat, ((P.col.onRank r.col).sub off n).dist.global_element_from_local_element (klc r) = k := ⟨_, (Int.toNat_of_nonneg q3).symm⟩
    have hk' : ((P.at' .Col r).sub off n).dist.global_element_from_local_element (klc r) = k := hk
    rw [hk'] at q1 q2 q3 q4
    have q4' : (k : Int) < n := q4
    have q1' : (P.col.sub off n).localPos k = klc r := q1
    have q2' : (P.col.sub off n).owner k = r.col := q2
    refine ⟨k, hk, by omega, fun j hj oj => ⟨fun hle => ?_, fun hle => ?_⟩⟩
    · by_contra hlt
      have := localPos_lt (p := P.col.sub off n) (x := j) (y := k) (by omega) (by omega) (oj.trans q2'.symm)
      omega
    · rcases Nat.lt_or_ge k j with hlt | hge
      · have := localPos_lt (p := P.col.sub off n) (x := k) (y := j) (by omega) (by omega) (q2'.trans oj.symm)
        omega
      · have : j = k := by omega
        subst this
        omega
  choose! kk hkk using hk
  let act : Coord2 → Prop := fun r => (klc r : Int) < ((P.col.onRank r.col).sub off n).dist.localSize
  let fin : Coord2 → DSt K × EvSt K := fun r => copyCols P r off n (kk r) (g2.st r)
  have hlocal : ∀ r ∈ P.ranks, act r → ((off + kk r : Nat) : Int) = off + kk r ∧ ((n - kk r : Nat) : Int) = n - kk r := by
    intro r hr h
    have := (hkk r hr h).2.1
    omega
  let L := P.ranks.filter fun r => decide (act r)
  let g3 : Glob (DSt K × EvSt K) (Blk K) := { g2 with st := fun r => if r ∈ L then fin r else g2.st r }
  have r3 : Runs (fun r => if r ∈ L then ([.loc fun s => some (copyCols P r off n (kk r) s)] : List (Instr (DSt K × EvSt K) (Blk K))) else []) g2 g3 :=
    Runs.loc (P.ranks_nodup.filter _) _ fin (fun r => rfl) fun r _ => rfl
  have hL : ∀ r ∈ P.ranks, (r ∈ L ↔ act r) := fun r hr => by simp [L, List.mem_filter, hr]
  refine ⟨g3, ((r1.append r2).append r3).congr fun r => ?_, ⟨H2.clean.agree, H2.clean.fresh⟩, fun r hr => ⟨?_, ?_, ?_⟩⟩
  · by_cases hr : r ∈ P.ranks
    · simp only [if_pos hr]
      unfold distMultEvecs
      rw [sub_on vr vc hr (o := ⟨off, off⟩) (n := ⟨n, n⟩) ⟨by dsimp only; omega, by dsimp only; omega⟩
        ⟨by dsimp only; omega, by dsimp only; omega⟩ ⟨by dsimp only; omega, by dsimp only; omega⟩]
      have e1 : ((P.sub ⟨off, off⟩ ⟨n, n⟩).on r).col = ((P.col.onRank r.col).sub off n).dist := rfl
      dsimp only
      rw [e1]
      rw [show ((c - a : Nat) : Int) = c - a by omega, Nat.cast_add, Nat.cast_add]
      congr 1
      by_cases ha : act r
      · rw [if_pos ((hL r hr).2 ha), if_pos ha]
        obtain ⟨k1, k2, _⟩ := hkk r hr ha
        rw [k1]
        obtain ⟨c1, c2⟩ := hlocal r hr ha
        unfold copyRef copyCols
        rw [sub_on vr vc hr (o := ⟨off, off + kk r⟩) (n := ⟨n, n - kk r⟩) ⟨by dsimp only; omega, by dsimp only; omega⟩
          ⟨by dsimp only; omega, by dsimp only; omega⟩ ⟨by dsimp only; omega, by dsimp only; omega⟩, c1, c2]
      · rw [if_neg (fun h => ha ((hL r hr).1 h)), if_neg ha]
    · have : r ∉ L := fun h => hr (List.mem_filter.1 h).1
      simp only [if_neg hr, if_neg this]
      rfl
  · rw [← (u1 r hr).1, ← (u2 r hr).1]
    show (if r ∈ L then fin r else g2.st r).2.e1 = _
    split <;> rfl
  · rw [← (u1 r hr).2, ← (u2 r hr).2]
    show (if r ∈ L then fin r else g2.st r).2.e2 = _
    split <;> rfl
  · show HoldsLoc P r (if r ∈ L then fin r else g2.st r).2.e0 _
    -- the owner of a column of the window
    have own : ∀ y : Nat, off ≤ y → P.col.owner y = r.col → (P.col.sub off n).owner ((y - off : Nat) : Int) = r.col := by
      intro y hy oy
      rw [← oy]
      unfold Params.owner Params.sub
      dsimp only
      rw [show P.col.offset + (off : Int) + ((y - off : Nat) : Int) = P.col.offset + y by omega]
    have base : HoldsLoc P r (g2.st r).2.e0 fun x y => if (off ≤ x ∧ x < off + n) ∧ (off ≤ y ∧ y < off + c) then
        if x - off < n1 then ∑ l ∈ Finset.range b, A1 x (off + l) * A2 (off + l) y
        else ∑ l ∈ Finset.range (c - a), A1 x (off + a + l) * A2 (off + a + l) y
        else A0 x y := by
      intro x y hx hy ox oy
      refine (H2.e0 r hr x y hx hy ox oy).trans ?_
      unfold winSet
      beta_reduce
      by_cases hin : (off ≤ x ∧ x < off + n) ∧ (off ≤ y ∧ y < off + c)
      · rw [if_pos hin]
        by_cases h1 : x - off < n1
        · rw [if_neg (by omega), if_pos (by omega), if_pos h1]
          rw [show off + (x - off) = x by omega, show off + (y - off) = y by omega]
        · rw [if_pos (by omega), if_neg h1]
          rw [show off + n1 + (x - (off + n1)) = x by omega, show off + (y - off) = y by omega]
      · rw [if_neg hin, if_neg (by omega), if_neg (by omega)]
    by_cases ha : act r
    · rw [if_pos ((hL r hr).2 ha)]
      obtain ⟨k1, k2, k3⟩ := hkk r hr ha
      have cp := copy_holds vr vc (R := off) (C := off + kk r) (m := n) (n := n - kk r) (by omega) (by omega) hr H2.e1 base
      intro x y hx hy ox oy
      refine (cp x y hx hy ox oy).trans ?_
      unfold winSet
      beta_reduce
      by_cases hin : (off ≤ x ∧ x < off + n) ∧ (off ≤ y ∧ y < off + n)
      · rw [if_pos hin]
        have := k3 (y - off) (by omega) (own y hin.2.1 oy)
        by_cases hkl : kk r ≤ y - off
        · rw [if_pos (by omega), if_pos (this.2 hkl), show off + (x - off) = x by omega, show off + kk r + (y - (off + kk r)) = y by omega]
        · rw [if_neg (by omega), if_neg (fun h => hkl (this.1 h))]
          by_cases hyc : y - off < c
          · rw [if_pos (by omega), if_pos hyc]
          · rw [if_neg (by omega), if_neg hyc]
      · rw [if_neg hin, if_neg (by omega), if_neg (by omega)]
    · rw [if_neg (fun h => ha ((hL r hr).1 h))]
      intro x y hx hy ox oy
      refine (base x y hx hy ox oy).trans ?_
      beta_reduce
      by_cases hin : (off ≤ x ∧ x < off + n) ∧ (off ≤ y ∧ y < off + n)
      · have vs := (Params2.at_valid vr vc hr).2.sub (o := off) (n := n) (by omega) (by omega)
        have : (P.col.sub off n).localPos ((y - off : Nat) : Int) < klc r := by
          have q := (vs.owned_elem (e := ((y - off : Nat) : Int)) (by omega) (by show ((y - off : Nat) : Int) < n; omega) (own y hin.2.1 oy))
          have ql := vs.localPos_here (e := ((y - off : Nat) : Int)) (by omega) (own y hin.2.1 oy)
          have q2 := q.2.1
          rw [ql] at q2
          have q3 : (P.col.sub off n).localPos ((y - off : Nat) : Int) < ((P.col.onRank r.col).sub off n).dist.localSize := q2
          have na : ¬ (klc r : Int) < ((P.col.onRank r.col).sub off n).dist.localSize := ha
          omega
        rw [if_pos hin, if_neg (show ¬ (klc r : Int) ≤ (P.col.sub off n).localPos ((y - off : Nat) : Int) by omega)]
        by_cases hyc : y - off < c
        · rw [if_pos (by omega), if_pos hyc]
        · rw [if_neg (by omega), if_neg hyc]
      · rw [if_neg hin, if_neg (by omega)]

/-- The result of the merge: the deflated eigenvectors of `E1`, the others `E1 E2`. -/
def mergedEvecs (off n : Nat) (cs : List ColType) (A0 A1 A2 : Nat → Nat → K) : Nat → Nat → K := fun x y =>
  if (off ≤ x ∧ x < off + n) ∧ (off ≤ y ∧ y < off + n) then
    if cs[y - off]? = some .Deflated then A1 x y else ∑ l ∈ Finset.range n, A1 x (off + l) * A2 (off + l) y
  else A0 x y

/-- The products as a part of a larger program. -/
theorem mult_glob {P : Params2} (hP : SquareDist P) (dbg : Bool) {off n n1 n2 a b c : Nat} (hn : n = n1 + n2) (hoff : (off + n : Nat) ≤ P.row.size)
    {cs : List ColType} (hcs : cs.length = n) (hB : C67.Bounds cs a b c) {klc : Coord2 → Nat}
    (hk : ∀ r ∈ P.ranks, ∀ j < n, (P.col.sub off n).owner j = r.col → ((P.col.sub off n).localPos j < klc r ↔ cs[j]? ≠ some .Deflated))
    {A0 A1 A2 : Nat → Nat → K} (hz : MergeBlocks off n n1 cs A1 A2) {g : Glob (DSt K × EvSt K) (Blk K)} (hg : EvHolds P A0 A1 A2 g) :
    ∃ g', Runs (fun r => if r ∈ P.ranks then distMultEvecs dbg (P.on r) off n n1 n2 (klc r) a b c else []) g g' ∧ Clean P.ranks g' ∧
      ∀ r ∈ P.ranks, HoldsLoc P r (g'.st r).2.e0 (mergedEvecs off n cs A0 A1 A2) ∧ (g'.st r).2.e1 = (g.st r).2.e1 ∧ (g'.st r).2.e2 = (g.st r).2.e2 := by
  obtain ⟨B1, B2, B3, B4, B5, B6, -⟩ := hB
  obtain ⟨g', q1, q2, q3⟩ := multEvecs_runs hP dbg hn hoff (a := a) (b := b) (c := c) (by omega) (by omega) (by omega) klc hg
  refine ⟨g', q1, q2, fun r hr => ?_⟩
  obtain ⟨u1, u2, u3⟩ := q3 r hr
  refine ⟨fun x y hx hy ox oy => (u3 x y hx hy ox oy).trans ?_, u1, u2⟩
  unfold mergedEvecs
  refine if_ctx_congr Iff.rfl (fun hin => ?_) fun _ => rfl
  have oy' : (P.col.sub off n).owner ((y - off : Nat) : Int) = r.col := by
    rw [← oy]
    unfold Params.owner Params.sub
    dsimp only
    rw [show P.col.offset + (off : Int) + ((y - off : Nat) : Int) = P.col.offset + y by omega]
  have hkl := hk r hr (y - off) (by omega) oy'
  by_cases hd : cs[y - off]? = some .Deflated
  · rw [if_pos hd, if_pos]
    by_contra hc
    exact (hkl.1 (by omega)) hd
  · rw [if_neg hd, if_neg (by have := hkl.2 hd; omega)]
    have hj : y - off < n := by omega
    have hg : cs[y - off]? = some (cs[y - off]'(by omega)) := List.getElem?_eq_getElem _
    have hcol : y - off < c := (B6 _ _ hg).2 (fun h => hd (by rw [hg, h]))
    rw [if_pos hcol]
    have hzero : ∀ l < n, cs[l]? = some .Deflated → A2 (off + l) y = 0 := fun l hl h => by
      have := hz.defl l hl h (y - off) hj hd
      rwa [show off + (y - off) = y by omega] at this
    have typ : ∀ l < n, ∃ t, cs[l]? = some t := fun l hl => ⟨_, List.getElem?_eq_getElem (by omega)⟩
    by_cases hr1 : x - off < n1
    · rw [if_pos hr1]
      refine Finset.sum_subset (fun l hl => Finset.mem_range.2 (by have := Finset.mem_range.1 hl; omega)) fun l hl hl' => ?_
      rw [Finset.mem_range] at hl hl'
      obtain ⟨t, ht⟩ := typ l hl
      obtain ⟨w1, w2⟩ := B6 _ _ ht
      cases t with
      | UpperHalf => exact absurd (w1 (Or.inl rfl)) hl'
      | Dense => exact absurd (w1 (Or.inr rfl)) hl'
      | LowerHalf =>
        have := hz.lower _ hr1 l ht
        rw [show off + (x - off) = x by omega] at this
        rw [this, zero_mul]
      | Deflated => rw [hzero l hl ht, mul_zero]
    · rw [if_neg hr1]
      have hshift : ∑ l ∈ Finset.range (c - a), A1 x (off + a + l) * A2 (off + a + l) y = ∑ l ∈ Finset.Ico a c, A1 x (off + l) * A2 (off + l) y := by
        rw [Finset.sum_Ico_eq_sum_range]
        exact Finset.sum_congr rfl fun l _ => by rw [Nat.add_assoc]
      rw [hshift]
      refine Finset.sum_subset (fun l hl => Finset.mem_range.2 (by have := Finset.mem_Ico.1 hl; omega)) fun l hl hl' => ?_
      rw [Finset.mem_range] at hl
      rw [Finset.mem_Ico] at hl'
      obtain ⟨t, ht⟩ := typ l hl
      rcases Nat.lt_or_ge l a with hla | hla
      · have hu := B4 l hla
        have := hz.upper (x - off) (by omega) (by omega) l hu
        rw [show off + (x - off) = x by omega] at this
        rw [this, zero_mul]
      · have hlc : ¬ l < c := fun h => hl' ⟨hla, h⟩
        have : t = .Deflated := by
          by_contra hne
          exact hlc ((B6 _ _ ht).2 hne)
        subst this
        rw [hzero l hl ht, mul_zero]

/-- C69.  Given the partition of the columns by type (C67), the zero blocks of `E1` and `E2` and the number of the non-deflated columns of every process: under every schedule
of the processes the program ends without abort or deadlock; the sub-problem's part of `E0` is then `E1` in the deflated columns and `E1 E2` in the others, the rest of `E0`, `E1` and `E2` are
as before. -/
theorem C69_multiply_eigenvectors {P : Params2} (hP : SquareDist P) (dbg : Bool) {off n n1 n2 a b c : Nat} (hn : n = n1 + n2) (hoff : (off + n : Nat) ≤ P.row.size)
    {cs : List ColType} (hcs : cs.length = n) (hB : C67.Bounds cs a b c) {klc : Coord2 → Nat}
    (hk : ∀ r ∈ P.ranks, ∀ j < n, (P.col.sub off n).owner j = r.col → ((P.col.sub off n).localPos j < klc r ↔ cs[j]? ≠ some .Deflated))
    {A0 A1 A2 : Nat → Nat → K} (hz : MergeBlocks off n n1 cs A1 A2) {st : Coord2 → DSt K × EvSt K}
    (h0 : ∀ r ∈ P.ranks, HoldsLoc P r (st r).2.e0 A0) (h1 : ∀ r ∈ P.ranks, HoldsLoc P r (st r).2.e1 A1) (h2 : ∀ r ∈ P.ranks, HoldsLoc P r (st r).2.e2 A2) :
    AlwaysEnds (Conf.init (fun r => if r ∈ P.ranks then distMultEvecs dbg (P.on r) off n n1 n2 (klc r) a b c else []) st) fun fin =>
      ∀ r ∈ P.ranks, HoldsLoc P r (fin r).2.e0 (mergedEvecs off n cs A0 A1 A2) ∧ (fin r).2.e1 = (st r).2.e1 ∧ (fin r).2.e2 = (st r).2.e2 := by
  obtain ⟨g', q1, _, q3⟩ := mult_glob hP dbg hn hoff hcs hB hk hz (g := ⟨st, fun _ _ => 0, fun _ _ _ => none⟩) ⟨Clean.init _ _, h0, h1, h2⟩
  exact q1.alwaysEnds q3

/-- C69: all members of a communicator perform the same collectives in the same order, although `k_lc` differs. -/
theorem C69_same_collectives {P : Params2} (hP : SquareDist P) (dbg : Bool) {off n n1 n2 a b c : Nat} (hn : n = n1 + n2) (hoff : (off + n : Nat) ≤ P.row.size)
    (hab : a ≤ c) (hb : b ≤ n) (hc : c ≤ n) (klc : Coord2 → Nat) :
    SameCollectives P.ranks fun r => distMultEvecs (K := K) dbg (P.on r) off n n1 n2 (klc r) a b c := by
  have vr : P.row.Valid := hP.row.valid
  have vc : P.col.Valid := hP.col.valid
  have hsz := hP.size
  have key : ∀ {R C L m w k : Nat}, (R + m : Nat) ≤ P.row.size → (C + w : Nat) ≤ P.col.size → (L + k : Nat) ≤ P.row.size → ∀ r ∈ P.ranks, ∀ ch,
      sigs ch (gemmRef (K := K) dbg (P.on r) ⟨R, L⟩ ⟨L, C⟩ ⟨R, C⟩ m w k) =
        sigs ch (distGenNN (K := K) dbg 1 0 ((P.sub ⟨R, L⟩ ⟨m, k⟩).on r) ((P.sub ⟨L, C⟩ ⟨k, w⟩).on r) ((P.sub ⟨R, C⟩ ⟨m, w⟩).on r)) := by
    intro R C L m w k hR hC hL r h ch
    unfold gemmRef
    rw [sub_on vr vc h (o := ⟨R, L⟩) (n := ⟨m, k⟩) ⟨by dsimp only; omega, by dsimp only; omega⟩
      ⟨by dsimp only; omega, by dsimp only; omega⟩ ⟨by dsimp only; omega, by dsimp only; omega⟩,
      sub_on vr vc h (o := ⟨L, C⟩) (n := ⟨k, w⟩) ⟨by dsimp only; omega, by dsimp only; omega⟩
      ⟨by dsimp only; omega, by dsimp only; omega⟩ ⟨by dsimp only; omega, by dsimp only; omega⟩,
      sub_on vr vc h (o := ⟨R, C⟩) (n := ⟨m, w⟩) ⟨by dsimp only; omega, by dsimp only; omega⟩
      ⟨by dsimp only; omega, by dsimp only; omega⟩ ⟨by dsimp only; omega, by dsimp only; omega⟩]
    dsimp only
    rw [sigs_append, sigs_append, sigs_onFst]
    simp [sigs]
  have main : ∀ r ∈ P.ranks, ∀ ch, sigs ch (distMultEvecs (K := K) dbg (P.on r) off n n1 n2 (klc r) a b c) =
      sigs ch (distGenNN (K := K) dbg 1 0 ((P.sub ⟨off, off⟩ ⟨n1, b⟩).on r) ((P.sub ⟨off, off⟩ ⟨b, c⟩).on r) ((P.sub ⟨off, off⟩ ⟨n1, c⟩).on r)) ++
      sigs ch (distGenNN (K := K) dbg 1 0 ((P.sub ⟨(off + n1 : Nat), (off + a : Nat)⟩ ⟨n2, (c - a : Nat)⟩).on r) ((P.sub ⟨(off + a : Nat), off⟩ ⟨(c - a : Nat), c⟩).on r)
        ((P.sub ⟨(off + n1 : Nat), off⟩ ⟨n2, c⟩).on r)) := by
    intro r hr ch
    rw [← key (R := off) (C := off) (L := off) (m := n1) (w := c) (k := b) (by omega) (by omega) (by omega) r hr ch,
      ← key (R := off + n1) (C := off) (L := off + a) (m := n2) (w := c) (k := c - a) (by omega) (by omega) (by omega) r hr ch]
    unfold distMultEvecs
    rw [sub_on vr vc hr (o := ⟨off, off⟩) (n := ⟨n, n⟩) ⟨by dsimp only; omega, by dsimp only; omega⟩
      ⟨by dsimp only; omega, by dsimp only; omega⟩ ⟨by dsimp only; omega, by dsimp only; omega⟩]
    dsimp only
    rw [show ((c - a : Nat) : Int) = c - a by omega, Nat.cast_add, Nat.cast_add, sigs_append, sigs_append]
    have : ∀ o l : Coord2, sigs ch (copyRef (K := K) (P.on r) o l) = [] := by
      intro o l
      unfold copyRef
      split <;> simp [sigs]
    split
    · rw [this, List.append_nil]
    · simp [sigs]
  intro ch r hr s hs h1 h2
  beta_reduce
  rw [main r hr ch, main s hs ch,
    C54_same_collectives (K := K) (mulDist_sub hP off off off n1 c b) dbg 1 0 ch r hr s hs h1 h2,
    C54_same_collectives (K := K) (mulDist_sub hP (off + n1) off (off + a) n2 c (c - a)) dbg 1 0 ch r hr s hs h1 h2]

section
open DLAF.C34 DLAF.C35 DLAF.C67
variable {T : Type} [LinearOrder T] {p : Params} {n : Nat} {types : List ColType} {evals : List T} {perm out1 out2 : List Nat}

/-- C69 with C67: `k_lc` of the partition is the number `multiplyEigenvectors` expects: on every process the columns from the local column `k_lc` are the deflated ones. -/
theorem C69_partition (hp : p.Valid) (hn : p.size = n) (h1 : types.length = n) (h2 : evals.length = n) (h3 : out1.length = n) (h4 : out2.length = n)
    (hperm : IsPerm n perm) {R : DistPart.Result} (h : DistPart.stablePartition p.dist types evals perm out1 out2 = some R) :
    ∀ j < n, p.owner j = p.rank → (p.localPos j < (R.k_lc : Int) ↔ (typesAlong types R.index_sorted_coltype)[j]? ≠ some .Deflated) := by
  intro j hj hown
  obtain ⟨q1, q2, q3⟩ := C67_sorted_by_type hp hn h1 h2 h3 h4 hperm h
  obtain ⟨_, _, _, _, s4⟩ := C67_index_sorted hp hn h1 h2 h3 h4 hperm h
  have hk := (C67_counts hp hn h1 h2 h3 h4 hperm h).2
  have hr := hp.2.2.2.2.2.1
  obtain ⟨_, l, hl, hlj⟩ := DistPart.col_surj hp hn hj
  rw [hown] at hl hlj
  obtain ⟨c1, c2, c3, c4⟩ := DistPart.col_spec hp hn hr.1 hr.2 hl
  have c4' : p.dist.local_element_from_global_element (localColumn p p.rank l) = l := c4
  rw [hlj, hp.localPos_here (by omega) hown] at c4'
  obtain ⟨ql, qo⟩ := q3 p.rank hr.1 hr.2
  have qo := qo l hl
  rw [hlj] at qo
  -- the types along the columns
  have along : ∀ (c : List Nat), (∀ x ∈ c, x < types.length) → ∀ j : Nat, (typesAlong types c)[j]? = c[j]?.bind fun i => types[i]? := by
    intro c hc
    have e : typesAlong types c = c.map fun i => types.getD i .Deflated := by
      unfold typesAlong
      rw [← List.filterMap_eq_map]
      apply List.filterMap_congr
      intro i hi
      simp [List.getElem?_eq_getElem (hc i hi)]
    intro j
    rw [e, List.getElem?_map]
    cases hcj : c[j]? with
    | none => rfl
    | some x =>
      have := hc x (List.mem_of_getElem? hcj)
      simp [List.getElem?_eq_getElem this]
  rw [along _ (fun x hx => by rw [h1]; exact q1.lt hx) j, qo]
  have hlen := DistPart.sum_types (p := p) (types := types) p.rank R.index_sorted fun i hi => by rw [h1]; exact s4.lt hi
  have hperm' := (s4.filter fun i : Nat => decide (types[i]? ≠ some ColType.Deflated ∧ p.owner i = p.rank)).length_eq
  rw [hperm', ← hk] at hlen
  have hN : (typeOnRank p types p.rank .UpperHalf R.index_sorted ++ typeOnRank p types p.rank .Dense R.index_sorted ++
      typeOnRank p types p.rank .LowerHalf R.index_sorted).length = R.k_lc := by
    rw [List.length_append, List.length_append]; exact hlen
  have ll : l < (localOrder p types p.rank R.index_sorted).length := by rw [ql]; exact hl
  rw [c4']
  unfold localOrder at ll ⊢
  by_cases hlt : l < R.k_lc
  · rw [List.getElem?_append_left (by rw [hN]; exact hlt)]
    have hx := List.getElem?_eq_getElem (l := typeOnRank p types p.rank .UpperHalf R.index_sorted ++ typeOnRank p types p.rank .Dense R.index_sorted ++
      typeOnRank p types p.rank .LowerHalf R.index_sorted) (i := l) (by rw [hN]; exact hlt)
    have hm := List.mem_of_getElem? hx
    rw [hx, Option.bind_some]
    generalize (typeOnRank p types p.rank .UpperHalf R.index_sorted ++ typeOnRank p types p.rank .Dense R.index_sorted ++
      typeOnRank p types p.rank .LowerHalf R.index_sorted)[l]'(by rw [hN]; exact hlt) = x at hm
    simp only [typeOnRank, List.mem_append, List.mem_filter, decide_eq_true_eq] at hm
    refine ⟨fun _ hd => ?_, fun _ => by omega⟩
    rcases hm with (⟨_, hm, _⟩ | ⟨_, hm, _⟩) | ⟨_, hm, _⟩ <;> rw [hm] at hd <;> cases hd
  · rw [List.getElem?_append_right (by rw [hN]; omega), hN]
    rw [List.length_append, hN] at ll
    have hx := List.getElem?_eq_getElem (l := typeOnRank p types p.rank .Deflated R.index_sorted) (i := l - R.k_lc) (by omega)
    have hm := List.mem_of_getElem? hx
    rw [hx, Option.bind_some]
    simp only [typeOnRank, List.mem_filter, decide_eq_true_eq] at hm
    refine ⟨fun h => by omega, fun hd => ?_⟩
    exact absurd hm.2.1 hd
end

/- Non-vacuity: a sub-problem of size 6 (4 and 2) at 1 in a matrix of size 8 with tiles of size 2 on a 2 x 3 grid; the process columns hold the columns (1, 2), (3, 4) and (0, 5). -/
namespace Ex69
def P : Params2 := ⟨⟨8, 2, 2, 2, 0, 1, 0⟩, ⟨8, 2, 2, 3, 0, 2, 0⟩⟩
def types : List ColType := [.UpperHalf, .Dense, .Deflated, .LowerHalf, .Deflated, .LowerHalf]
def sub : Params := P.col.sub 1 6
def klc : Coord2 → Nat := fun r => if r.col = 2 then 2 else 1
def A0 : Nat → Nat → ℚ := fun x y => 100 * x + y
def A1 : Nat → Nat → ℚ := fun x y => if (y = 1 ∧ 5 ≤ x) ∨ ((y = 4 ∨ y = 6) ∧ x < 5) then 0 else x + 10 * y
def A2 : Nat → Nat → ℚ := fun x y => if (x = 3 ∨ x = 5) ∧ ¬ (y = 3 ∨ y = 5) then 0 else 3 * x + y + 1

/-- The partition of the columns: `n_udl`, `k_lc`, the types along `index_sorted_coltype`. -/
example : ∀ r ∈ P.ranks, (DistPart.stablePartition (sub.onRank r.col).dist types [1, 2, 3, 4, 5, 6] [0, 1, 2, 3, 4, 5] [0, 0, 0, 0, 0, 0] [0, 0, 0, 0, 0, 0]).map
    (fun R => (R.n_udl, R.k_lc, C67.typesAlong types R.index_sorted_coltype)) = some ([1, 2, 6], klc r, types) := by decide +kernel

theorem hk : ∀ r ∈ P.ranks, ∀ j < 6, (P.col.sub 1 6).owner (j : Nat) = r.col → ((P.col.sub 1 6).localPos (j : Nat) < klc r ↔ types[j]? ≠ some .Deflated) := by
  decide +kernel

theorem hz : MergeBlocks 1 6 4 types A1 A2 := by
  refine ⟨?_, ?_, ?_⟩
  · intro i hi h4 j hj
    have : j < 6 := (List.getElem?_eq_some_iff.1 hj).1
    interval_cases j <;> simp [types] at hj
    simp only [A1]
    rw [if_pos (Or.inl ⟨by trivial, by omega⟩)]
  · intro i hi j hj
    have : j < 6 := (List.getElem?_eq_some_iff.1 hj).1
    interval_cases j <;> simp [types] at hj
    · simp only [A1]
      rw [if_pos (Or.inr ⟨Or.inl (by trivial), by omega⟩)]
    · simp only [A1]
      rw [if_pos (Or.inr ⟨Or.inr (by trivial), by omega⟩)]
  · intro l hl hl' j hj hj'
    interval_cases l <;> simp [types] at hl' <;> interval_cases j <;> simp [types] at hj' <;> simp [A2]

/-- The local parts of a matrix. -/
def locOf (A : Nat → Nat → ℚ) (r : Coord2) : LocE ℚ := fun x y =>
  A ((P.at' .Row r).dist.global_element_from_local_element x).toNat ((P.at' .Col r).dist.global_element_from_local_element y).toNat

theorem locOf_holds (A : Nat → Nat → ℚ) : ∀ r ∈ P.ranks, HoldsLoc P r (locOf A r) A := by
  intro r hr x y hx hy ox oy
  obtain ⟨vr, vc⟩ := Params2.at_valid (P := P) (by decide) (by decide) hr
  have a := C03_owned_global_local_global vr (e := x) (by omega) ox
  have b := C03_owned_global_local_global vc (e := y) (by omega) oy
  rw [vr.localPos_here (by omega) ox] at a
  rw [vc.localPos_here (by omega) oy] at b
  have a' : (P.at' .Row r).dist.global_element_from_local_element (P.row.localPos x) = x := a
  have b' : (P.at' .Col r).dist.global_element_from_local_element (P.col.localPos y) = y := b
  unfold locOf
  rw [a', b', Int.toNat_natCast, Int.toNat_natCast]

example : SquareDist P ∧ P.ranks.length = 6 := by decide

example (d : DSt ℚ) : AlwaysEnds (Conf.init (fun r => if r ∈ P.ranks then distMultEvecs true (P.on r) 1 6 4 2 (klc r) 1 2 6 else [])
    fun r => (d, (⟨locOf A0 r, locOf A1 r, locOf A2 r⟩ : EvSt ℚ))) fun fin =>
      ∀ r ∈ P.ranks, HoldsLoc P r (fin r).2.e0 (mergedEvecs 1 6 types A0 A1 A2) ∧ (fin r).2.e1 = locOf A1 r ∧ (fin r).2.e2 = locOf A2 r :=
  C69_multiply_eigenvectors (P := P) (off := 1) (n := 6) (n1 := 4) (n2 := 2) (a := 1) (b := 2) (c := 6) (cs := types) (klc := klc) (by decide) true rfl (by decide) rfl
    ⟨by decide, by decide, by decide, by decide, by decide, by
      intro g c hg
      have : g < 6 := (List.getElem?_eq_some_iff.1 hg).1
      interval_cases g <;> simp [types] at hg <;> subst hg <;> decide, by decide, fun _ => ⟨.LowerHalf, by decide, by decide⟩⟩
    hk hz (locOf_holds A0) (locOf_holds A1) (locOf_holds A2)

/-- The element (2, 1) of the result is not that of `E0` or `E1`. -/
example : mergedEvecs 1 6 types A0 A1 A2 2 1 = 236 := by
  simp [mergedEvecs, types, A0, A1, A2, Finset.sum_range_succ]
  norm_num
end Ex69

end DLAF
