import Verif.Lemmas.BandRun
/- The copies to the compact band, and the whole execution. -/
namespace DLAF
open scoped Classical
open Sem
variable {K : Type*} [RCLike K] {E : BtEnv K}

/-- A window of diagonals. -/
theorem putW2_lo (hb : 2 ≤ E.b) {mem : Nat → K} {o j m n : Nat} {g : Nat → Nat → K} (ho : o + m ≤ 2 * E.b) {x y : Nat} (hyx : y ≤ x)
    (hx : x < y + 2 * E.b) :
    lo E.b (putW mem (E.ptr o j) (E.ld + 1) m n all2 g) x y =
      if (j ≤ y ∧ y < j + n) ∧ o ≤ x - y ∧ x - y < o + m then g (x - y - o) (y - j) else lo E.b mem x y := by
  have hld := ld_succ (E := E) hb
  have haddr : ∀ r c, E.ptr o j + r + c * (E.ld + 1) = (j + c) * (2 * E.b) + (o + r) := by
    intro r c
    rw [ptr_eq hb, hld, Nat.add_mul]
    omega
  by_cases h : (j ≤ y ∧ y < j + n) ∧ o ≤ x - y ∧ x - y < o + m
  · rw [if_pos h]
    have h4 := putW_in (mem := mem) (p := E.ptr o j) (n := n) (g := g) (sel := all2) (r := x - y - o) (c := y - j) (ld := E.ld + 1) (m := m)
      (by omega) (by omega) (by omega) trivial
    rw [haddr, show j + (y - j) = y by omega, show o + (x - y - o) = x - y by omega] at h4
    exact h4
  · rw [if_neg h]
    unfold lo
    refine putW_out fun r c hr hc _ e => h ?_
    rw [haddr] at e
    obtain ⟨e1, e2⟩ := addr_inj (by omega) (by omega) e
    omega

theorem ptr_shift (hb : 2 ≤ E.b) {s j : Nat} (hs : s ≤ E.b) : E.ptr E.b j + E.ld * s = E.ptr (E.b - s) (j + s) := by
  rw [ptr_eq hb, ptr_eq hb, Nat.add_mul]
  have : s * (2 * E.b) = E.ld * s + s := by rw [← ld_succ hb, Nat.mul_comm, Nat.add_mul, Nat.one_mul]
  omega

theorem copyDiag_lo (ok : BtOK E) {k : Nat} (hk : k < E.nt) (s : BtSt K) {x y : Nat} (hyx : y ≤ x) (hx : x < y + 2 * E.b)
    (hy1 : k * E.nb ≤ y) (hy2 : y < k * E.nb + min E.nb (E.size - k * E.nb)) :
    lo E.b (copyDiag E k s).mem x y = if y + E.b < x then 0 else
      if x < k * E.nb + min E.nb (E.size - k * E.nb) then E.a x y else lo E.b (copyDiag E k s).mem x y := by
  have hb := ok.hb
  have hld := ld_succ (E := E) hb
  unfold copyDiag
  dsimp only
  generalize k * E.nb = j at *
  generalize min E.nb (E.size - j) = cols at *
  by_cases h0 : y + E.b < x
  · rw [if_pos h0, putW_lo hb (by omega) (fun r c hr hc hs => by have : c ≤ r := hs; omega) hyx hx, if_neg (by omega)]
    by_cases h1 : 0 < cols - E.b
    · rw [if_pos h1, putW2_lo hb (by omega) hyx hx, if_neg (by omega), putW2_lo hb (by omega) hyx hx, if_pos (by omega)]
    · rw [if_neg h1, putW2_lo hb (by omega) hyx hx, if_pos (by omega)]
  · rw [if_neg h0]
    by_cases h1 : x < j + cols
    · rw [if_pos h1, putW_lo hb (by omega) (fun r c hr hc hs => by have : c ≤ r := hs; omega) hyx hx]
      by_cases h2 : j + (cols - E.b) ≤ y
      · rw [if_pos ⟨by omega, by omega, show y - (j + (cols - E.b)) ≤ x - (j + (cols - E.b)) - 0 by omega⟩]
        congr 1 <;> omega
      · rw [if_neg (by omega), if_pos (by omega), putW2_lo hb (by omega) hyx hx, if_pos (by omega)]
        congr 1 <;> omega
    · rw [if_neg h1]

/-- Elements of the first columns of the tile also come from the tile. -/
theorem copyDiag_lo2 (ok : BtOK E) {k : Nat} (hk : k < E.nt) (s : BtSt K) {x y : Nat} (hyx : y ≤ x) (hx : x ≤ y + E.b)
    (hy1 : k * E.nb ≤ y) (hy2 : y + E.b < k * E.nb + min E.nb (E.size - k * E.nb)) : lo E.b (copyDiag E k s).mem x y = E.a x y := by
  rw [copyDiag_lo ok hk s hyx (by have := ok.hb; omega) hy1 (by omega), if_neg (by omega), if_pos (by omega)]

theorem copyOffDiag_lo (ok : BtOK E) {k : Nat} (hk : k + 1 < E.nt) (s : BtSt K) {x y : Nat} (hyx : y ≤ x) (hx : x < y + 2 * E.b)
    (hxn : x < E.size) (hy1 : k * E.nb ≤ y) (hy2 : y < k * E.nb + E.nb) :
    lo E.b (copyOffDiag E k s).mem x y =
      if k * E.nb + E.nb ≤ x ∧ x ≤ y + E.b then E.a x y else lo E.b s.mem x y := by
  have hb := ok.hb
  have hld := ld_succ (E := E) hb
  have hlt := ok.lt_size hk
  have hbn : E.b ≤ E.nb := by
    have := ok.nbdiv
    have hnb := ok.hnb
    rcases Nat.eq_zero_or_pos (E.nb / E.b) with h | h
    · rw [h] at this; omega
    · have := Nat.mul_le_mul_right E.b h; omega
  unfold copyOffDiag
  dsimp only
  rw [show (k + 1) * E.nb = k * E.nb + E.nb by rw [Nat.add_mul, Nat.one_mul]] at hlt ⊢
  generalize k * E.nb = j at *
  generalize hrows : min E.nb (E.size - (j + E.nb)) = rows
  have e1 : ∀ g, lo E.b (putW s.mem (E.ptr E.b (j + (E.nb - E.b))) E.ld (min E.b rows) (min E.b rows) upper2 g) x y =
      if (j + E.nb ≤ x ∧ x < j + E.nb + min E.b rows) ∧ (j + (E.nb - E.b) ≤ y ∧ y < j + (E.nb - E.b) + min E.b rows) ∧ x ≤ y + E.b then
        g (x - (j + E.nb)) (y - (j + (E.nb - E.b))) else lo E.b s.mem x y := by
    intro g
    rw [putW_lo hb (by omega) (fun r c hr hc hs => by have : r ≤ c := hs; omega) hyx hx]
    by_cases h : (j + E.nb ≤ x ∧ x < j + E.nb + min E.b rows) ∧ (j + (E.nb - E.b) ≤ y ∧ y < j + (E.nb - E.b) + min E.b rows) ∧ x ≤ y + E.b
    · rw [if_pos h, if_pos ⟨by omega, h.2.1, show x - (j + (E.nb - E.b)) - E.b ≤ y - (j + (E.nb - E.b)) by omega⟩]
      congr 1
      omega
    · rw [if_neg h, if_neg]
      rintro ⟨h1, h2, h3⟩
      have h3' : x - (j + (E.nb - E.b)) - E.b ≤ y - (j + (E.nb - E.b)) := h3
      exact h ⟨by omega, h2, by omega⟩
  by_cases h0 : min E.b rows < E.b
  · rw [if_pos h0, ptr_shift hb (by omega), putW_lo hb (by omega) (fun r c hr hc hs => by omega) hyx hx, e1]
    by_cases h1 : j + E.nb ≤ x ∧ x ≤ y + E.b
    · rw [if_pos h1]
      by_cases h2 : y < j + (E.nb - E.b) + min E.b rows
      · rw [if_neg (by omega), if_pos (by omega)]
        congr 1 <;> omega
      · rw [if_pos ⟨by omega, by omega, trivial⟩]
        congr 1 <;> omega
    · rw [if_neg h1, if_neg (by omega), if_neg (by omega)]
  · rw [if_neg h0, e1]
    by_cases h1 : j + E.nb ≤ x ∧ x ≤ y + E.b
    · rw [if_pos h1, if_pos (by omega)]
      congr 1 <;> omega
    · rw [if_neg h1, if_neg (by omega)]

/-- One column of tiles. -/
theorem copy_run (ok : BtOK E) {k : Nat} (hk : k < E.nt) (s : BtSt K) {s' : BtSt K}
    (hs' : s' = runT (bandProg E) k 0 ((bandProg E).len k) s) :
    s'.refl = s.refl ∧
    (∀ a, a / (2 * E.b) < k * E.nb → s'.mem a = s.mem a) ∧
    ∀ x < E.size, ∀ y ≤ x, x < y + 2 * E.b → k * E.nb ≤ y → y < (k + 1) * E.nb → lo E.b s'.mem x y = bandLow E.b E.size E.a x y := by
  have hb := ok.hb
  have hlt := ok.lt_size hk
  have hrun : s' = eff (copyInstr E k 1) (copyDiag E k s) := by
    rw [hs', bandProg_len_copy hk]
    simp only [runT, bandProg_instr_copy hk]
    have e2 : ∀ s : BtSt K, eff (copyInstr E k 2) s = s := by
      intro s
      unfold copyInstr
      rw [if_neg (by omega), if_neg (by omega), if_pos rfl]
      by_cases h : k = 0
      · rw [if_pos h]; rfl
      · rw [if_neg h]; rfl
    show eff (copyInstr E k 3) (eff (copyInstr E k 2) _) = _
    rw [e2]
    rfl
  have hfr : ∀ a, a / (2 * E.b) < k * E.nb → s'.mem a = s.mem a := by
    intro a ha
    have l1 := (copyDiag_local ok hk).1 s (.mem a) (fun h => by have := h.1; omega)
    by_cases h : k < E.nt - 1
    · have l2 := (copyOffDiag_local ok (show k + 1 < E.nt by omega)).1 (copyDiag E k s) (.mem a) (fun h => by have := h.1; omega)
      rw [hrun]
      show (eff (Instr.act (if k < E.nt - 1 then copyOffDiag E k else fun s => s)) _).mem a = _
      rw [if_pos h]
      exact Eq.trans l2 l1
    · rw [hrun]
      show (eff (Instr.act (if k < E.nt - 1 then copyOffDiag E k else fun s => s)) _).mem a = _
      rw [if_neg h]
      exact l1
  have hstep : s' = if k < E.nt - 1 then copyOffDiag E k (copyDiag E k s) else copyDiag E k s := by
    rw [hrun]
    show (if k < E.nt - 1 then copyOffDiag E k else fun s => s) _ = _
    by_cases h : k < E.nt - 1
    · rw [if_pos h, if_pos h]
    · rw [if_neg h, if_neg h]
  refine ⟨?_, hfr, fun x hx y hyx hxy hy1 hy2 => ?_⟩
  · rw [hstep]; split <;> rfl
  · rw [Nat.add_mul, Nat.one_mul] at hy2
    rw [hstep]
    have hband : bandLow E.b E.size E.a x y = if y + E.b < x then 0 else E.a x y := by
      unfold bandLow
      by_cases h : y + E.b < x
      · rw [if_pos h, if_pos ⟨by omega, h⟩]
      · rw [if_neg h, if_neg (fun h' => h h'.2)]
    rw [hband]
    have hd := copyDiag_lo ok hk s hyx hxy hy1 (by omega)
    by_cases h : k < E.nt - 1
    · have hlt2 := ok.lt_size (show k + 1 < E.nt by omega)
      rw [Nat.add_mul, Nat.one_mul] at hlt2
      rw [if_pos h, copyOffDiag_lo ok (by omega) _ hyx hxy hx hy1 hy2]
      by_cases h1 : k * E.nb + E.nb ≤ x ∧ x ≤ y + E.b
      · rw [if_pos h1, if_neg (by omega)]
      · rw [if_neg h1, hd]
        by_cases h2 : y + E.b < x
        · rw [if_pos h2, if_pos h2]
        · rw [if_neg h2, if_neg h2, if_pos (by omega)]
    · rw [if_neg h, hd]
      by_cases h2 : y + E.b < x
      · rw [if_pos h2, if_pos h2]
      · have hsz := ok.size_le
        have := Nat.mul_le_mul_right E.nb (show E.nt ≤ k + 1 by omega)
        rw [Nat.add_mul, Nat.one_mul] at this
        rw [if_neg h2, if_neg h2, if_pos (by omega)]

/-- All the copies. -/
theorem copies_run (ok : BtOK E) (s : BtSt K) : ∀ t, t ≤ E.nt →
    ∀ x < E.size, ∀ y ≤ x, x < y + 2 * E.b → y < t * E.nb →
      lo E.b (runAll (bandProg E) (fun _ => 0) t s).mem x y = bandLow E.b E.size E.a x y
  | 0, _ => by intro x _ y _ _ h; omega
  | t + 1, ht => by
    intro x hx y hyx hxy hy
    have ih := copies_run ok s t (by omega) x hx y hyx hxy
    obtain ⟨_, h2, h3⟩ := copy_run ok (show t < E.nt by omega) (runAll (bandProg E) (fun _ => 0) t s) rfl
    show lo E.b (runT (bandProg E) t 0 ((bandProg E).len t - 0) _).mem x y = _
    rw [Nat.sub_zero]
    by_cases h : t * E.nb ≤ y
    · exact h3 x hx y hyx hxy h hy
    · rw [← ih (by omega)]
      exact lo_col h2 (by omega) (by omega)

/-- After the copies. -/
theorem rest_zero (ok : BtOK E) (hA : ∀ x < E.size, star (E.a x x) = E.a x x) (s : BtSt K) :
    RestS E 0 (runAll (bandProg E) (fun _ => 0) E.nt s) := by
  have hb := ok.hb
  have hherm : HermF E.size (lowE (bandLow E.b E.size E.a)) := by
    intro x hx y hy
    unfold lowE
    by_cases h1 : y ≤ x
    · by_cases h2 : x ≤ y
      · have : x = y := by omega
        subst this
        rw [if_pos (Nat.le_refl _)]
        unfold bandLow
        rw [if_neg (by omega)]
        exact hA x hx
      · rw [if_pos h1, if_neg h2]
    · rw [if_neg h1, if_pos (by omega), star_star]
  refine ⟨lowE (bandLow E.b E.size E.a), ?_, ?_, ⟨hherm, ?_, ?_, ?_⟩, ?_⟩
  · show _ = (1 : Matrix _ _ K).conjTranspose * bandM E * (1 : Matrix _ _ K)
    rw [Matrix.conjTranspose_one, Matrix.one_mul, Matrix.mul_one]
    rfl
  · show (1 : Matrix _ _ K).conjTranspose * (1 : Matrix _ _ K) = 1
    rw [Matrix.conjTranspose_one, Matrix.mul_one]
  · intro x hx y hyx hxy
    rw [copies_run ok s E.nt (Nat.le_refl _) x hx y hyx hxy (by have := ok.size_le; omega)]
    unfold lowE
    rw [if_pos hyx]
  · intro x hx y hyx h
    have hyb : y + E.b < x := by
      unfold bdB at h
      rw [if_neg (by omega)] at h
      by_cases h1 : y = 0
      · rw [if_pos h1] at h; omega
      · rw [if_neg h1] at h
        have h4 := Nat.div_add_mod (y - 0 - 1) E.b
        have h7 := Nat.mod_lt (y - 0 - 1) (show 0 < E.b by omega)
        rw [Nat.mul_comm] at h4
        rw [Nat.add_mul] at h
        omega
    unfold lowE bandLow
    rw [if_pos hyx, if_pos ⟨by omega, hyb⟩]
  · intro y hy
    omega
  · intro i hi
    rw [Nat.zero_div, Nat.zero_mul] at hi
    omega

/-- After the sweeps. -/
theorem rest_sweeps (ok : BtOK E) (hl : LarfgSpec E.larfg) (hA : ∀ x < E.size, star (E.a x x) = E.a x x) (s : BtSt K) : ∀ sw,
    sw ≤ nrSweeps E.cplx E.size → RestS E sw (runAll (bandProg E) (fun _ => 0) (E.nt + sw) s)
  | 0, _ => rest_zero ok hA s
  | sw + 1, h => by
    have ih := rest_sweeps ok hl hA s sw (by omega)
    exact sweep_run ok hl (show sw < nrSweeps E.cplx E.size by omega) ih

theorem re_of_star {x : K} (h : star x = x) : ((RCLike.re x : ℝ) : K) = x := RCLike.conj_eq_iff_re.1 h

theorem lastCopy_d (hb : 2 ≤ E.b) (i : Nat) (s : BtSt K) (x : Nat) :
    (lastCopy E i s).d x = if (i - 1) / E.nb * E.nb ≤ x ∧ x < (i - 1) / E.nb * E.nb + min E.nb (E.size - (i - 1) / E.nb * E.nb) then
      RCLike.re (lo E.b s.mem x x) else s.d x := by
  unfold lastCopy
  dsimp only
  rw [copyTridiag_d hb]

theorem lastCopy_e (hb : 2 ≤ E.b) (i : Nat) (s : BtSt K) (x : Nat) :
    (lastCopy E i s).e x = if (i - 1) / E.nb * E.nb ≤ x ∧ x < (i - 1) / E.nb * E.nb + min E.nb (E.size - 1 - (i - 1) / E.nb * E.nb) then
      RCLike.re (lo E.b s.mem (x + 1) x) else s.e x := by
  unfold lastCopy
  dsimp only
  rw [copyTridiag_e hb]

/-- The tasks after the sweeps. -/
theorem runAll_last (s : BtSt K) :
    runAll (bandProg E) (fun _ => 0) (bandProg E).n s =
      lastCopy E E.size ((if E.cplx = false ∧ (E.size - 1) % E.nb = 0 then lastCopy E (E.size - 1) else fun s => s)
        (runAll (bandProg E) (fun _ => 0) (E.nt + nrSweeps E.cplx E.size) s)) := by
  show runAll (bandProg E) (fun _ => 0) (E.nt + nrSweeps E.cplx E.size + 1 + 1 + 1) s = _
  simp only [runAll]
  rw [bandProg_len_fin, bandProg_len_last (by omega), bandProg_len_last (by omega)]
  generalize runAll (bandProg E) (fun _ => 0) (E.nt + nrSweeps E.cplx E.size) s = s1
  have e0 : runT (bandProg E) (E.nt + nrSweeps E.cplx E.size) 0 (1 - 0) s1 = s1 := by
    simp only [runT, bandProg_instr_fin]
    rfl
  rw [e0]
  have e1 : ∀ t, E.nt + nrSweeps E.cplx E.size < t → ∀ s1 : BtSt K, runT (bandProg E) t 0 (3 - 0) s1 = eff (lastInstr E t 2) s1 := by
    intro t ht s1
    simp only [runT, bandProg_instr_last ht]
    have : ∀ s : BtSt K, eff (lastInstr E t 1) s = s := by
      intro s
      unfold lastInstr
      rw [if_neg (by omega), if_pos rfl]
      by_cases h : t = E.nt + nrSweeps E.cplx E.size + 2 ∧ (E.size - 1 - 1) / E.nb = (E.size - 1) / E.nb
      · rw [if_pos h]; rfl
      · rw [if_neg h]; rfl
    show eff (lastInstr E t 2) (eff (lastInstr E t 1) _) = _
    rw [this]
    rfl
  rw [e1 _ (by omega), e1 _ (by omega)]
  unfold lastInstr
  rw [if_neg (by omega), if_neg (by omega), if_pos rfl, if_neg (by omega), if_neg (by omega), if_neg (by omega)]
  rfl

/-- The whole execution, one task after the other. -/
theorem band_run (ok : BtOK E) (hl : LarfgSpec E.larfg) (hA : ∀ x < E.size, star (E.a x x) = E.a x x)
    (hreal : E.cplx = false → ∀ x : K, star x = x) (s : BtSt K) {s' : BtSt K}
    (hs' : s' = runAll (bandProg E) (fun _ => 0) (bandProg E).n s) :
    triM E.size s'.d s'.e = (hhQ E.cplx E.size E.b s'.refl).conjTranspose * bandM E * hhQ E.cplx E.size E.b s'.refl ∧
    (hhQ E.cplx E.size E.b s'.refl).conjTranspose * hhQ E.cplx E.size E.b s'.refl = 1 := by
  have hb := ok.hb
  have hnb := ok.hnb
  have hsz := ok.hs
  obtain ⟨G, h1, h2, h3, h4⟩ := rest_sweeps ok hl hA s (nrSweeps E.cplx E.size) (Nat.le_refl _)
  rw [runAll_last] at hs'
  generalize runAll (bandProg E) (fun _ => 0) (E.nt + nrSweeps E.cplx E.size) s = s1 at *
  have hq : hhQ E.cplx E.size E.b s'.refl = hhSweeps E.size E.b s1.refl (nrSweeps E.cplx E.size) := by
    have : s'.refl = s1.refl := by
      rw [hs']
      by_cases h : E.cplx = false ∧ (E.size - 1) % E.nb = 0
      · rw [if_pos h]; rfl
      · rw [if_neg h]; rfl
    rw [this]
    rfl
  rw [hq]
  refine ⟨?_, h2⟩
  rw [← h1]
  -- the tridiagonal matrix
  have hS := sweeps_le (cplx := E.cplx) (size := E.size)
  have hlast : ((E.size - 1) / E.nb * E.nb ≤ nrSweeps E.cplx E.size / E.nb * E.nb) ∨
      (E.cplx = false ∧ (E.size - 1) % E.nb = 0 ∧ ((E.size - 1) / E.nb * E.nb ≤ (E.size - 1 - 1) / E.nb * E.nb + E.nb) ∧
        (E.size - 1 - 1) / E.nb * E.nb ≤ nrSweeps E.cplx E.size / E.nb * E.nb) := by
    by_cases hc : E.cplx = false
    · have hS2 : nrSweeps E.cplx E.size = E.size - 2 := by unfold nrSweeps; rw [hc]; rfl
      by_cases h : (E.size - 1) % E.nb = 0
      · right
        refine ⟨hc, h, ?_, ?_⟩
        · have h5 := Nat.div_add_mod (E.size - 1) E.nb
          rw [h, Nat.add_zero, Nat.mul_comm] at h5
          have h6 := Nat.div_add_mod (E.size - 1 - 1) E.nb
          have h7 := Nat.mod_lt (E.size - 1 - 1) hnb
          rw [Nat.mul_comm] at h6
          omega
        · rw [hS2]; exact Nat.le_refl _
      · left
        rw [hS2]
        have h8 : (E.size - 1) / E.nb = (E.size - 2) / E.nb := by
          rcases Nat.lt_or_ge 1 E.size with h9 | h9
          · rw [show E.size - 1 = E.size - 2 + 1 by omega, Nat.succ_div, if_neg, Nat.add_zero]
            intro h'
            apply h
            rw [show E.size - 1 = E.size - 2 + 1 by omega]
            exact Nat.mod_eq_zero_of_dvd h'
          · rw [show E.size - 1 = 0 by omega, show E.size - 2 = 0 by omega]
        rw [h8]
    · left
      have hS2 : nrSweeps E.cplx E.size = E.size - 1 := by
        unfold nrSweeps
        rw [if_pos (by simpa using hc)]
      rw [hS2]
  have hde : (∀ i < E.size, s'.d i = RCLike.re (lo E.b s1.mem i i)) ∧
      ∀ i, i + 1 < E.size → s'.e i = RCLike.re (lo E.b s1.mem (i + 1) i) := by
    have h5 := Nat.div_add_mod (E.size - 1) E.nb
    have h6 := Nat.mod_lt (E.size - 1) hnb
    have h7 := Nat.div_add_mod (E.size - 1 - 1) E.nb
    have h8 := Nat.mod_lt (E.size - 1 - 1) hnb
    rw [Nat.mul_comm] at h5 h7
    have hmem : ((if E.cplx = false ∧ (E.size - 1) % E.nb = 0 then lastCopy E (E.size - 1) else fun s => s) s1).mem = s1.mem := by
      by_cases h : E.cplx = false ∧ (E.size - 1) % E.nb = 0
      · rw [if_pos h]; rfl
      · rw [if_neg h]
    rw [hs']
    refine ⟨fun i hi => ?_, fun i hi => ?_⟩
    · rw [lastCopy_d hb, hmem]
      by_cases hi1 : (E.size - 1) / E.nb * E.nb ≤ i
      · rw [if_pos ⟨hi1, by omega⟩]
      · rw [if_neg (by omega)]
        rcases hlast with hl1 | ⟨hl1, hl2, hl3, hl4⟩
        · by_cases h : E.cplx = false ∧ (E.size - 1) % E.nb = 0
          · rw [if_pos h, lastCopy_d hb, (h4 i (by omega)).1]
            split <;> rfl
          · rw [if_neg h]; exact (h4 i (by omega)).1
        · rw [if_pos ⟨hl1, hl2⟩, lastCopy_d hb]
          by_cases h9 : (E.size - 1 - 1) / E.nb * E.nb ≤ i
          · rw [if_pos ⟨h9, by omega⟩]
          · rw [if_neg (by omega)]; exact (h4 i (by omega)).1
    · rw [lastCopy_e hb, hmem]
      by_cases hi1 : (E.size - 1) / E.nb * E.nb ≤ i
      · rw [if_pos ⟨hi1, by omega⟩]
      · rw [if_neg (by omega)]
        rcases hlast with hl1 | ⟨hl1, hl2, hl3, hl4⟩
        · by_cases h : E.cplx = false ∧ (E.size - 1) % E.nb = 0
          · rw [if_pos h, lastCopy_e hb, (h4 i (by omega)).2]
            split <;> rfl
          · rw [if_neg h]; exact (h4 i (by omega)).2
        · rw [if_pos ⟨hl1, hl2⟩, lastCopy_e hb]
          by_cases h9 : (E.size - 1 - 1) / E.nb * E.nb ≤ i
          · rw [if_pos ⟨h9, by omega⟩]
          · rw [if_neg (by omega)]; exact (h4 i (by omega)).2
  have hdiag : ∀ i < E.size, ((s'.d i : ℝ) : K) = G i i := by
    intro i hi
    rw [hde.1 i hi, h3.hold i hi i (Nat.le_refl _) (by omega)]
    exact re_of_star (h3.herm i hi i hi)
  have hsub : ∀ i, i + 1 < E.size → ((s'.e i : ℝ) : K) = G (i + 1) i := by
    intro i hi
    rw [hde.2 i hi, h3.hold (i + 1) hi i (by omega) (by omega)]
    refine re_of_star ?_
    by_cases h : i < nrSweeps E.cplx E.size
    · exact h3.real i h hi
    · refine hreal ?_ _
      by_contra hc
      have : nrSweeps E.cplx E.size = E.size - 1 := by
        unfold nrSweeps
        rw [if_pos (by simpa using hc)]
      omega
  have hzero : ∀ x < E.size, ∀ y, y + 1 < x → G x y = 0 := by
    intro x hx y hyx
    refine h3.fill x hx y (by omega) ?_
    unfold bdB
    rw [if_pos (by omega)]
    exact hyx
  ext x y
  unfold triM toM
  by_cases c1 : (x : Nat) = y
  · rw [if_pos c1, hdiag x x.2, ← c1]
  rw [if_neg c1]
  by_cases c2 : (x : Nat) = y + 1
  · rw [if_pos c2, c2]
    exact hsub y (by omega)
  rw [if_neg c2]
  by_cases c3 : (y : Nat) = x + 1
  · rw [if_pos c3, hsub x (by omega), ← h3.herm y y.2 x x.2, c3]
    have h5 := hsub x (show (x : Nat) + 1 < E.size by omega)
    rw [← h5]
    exact (RCLike.conj_ofReal _).symm
  rw [if_neg c3]
  by_cases c4 : (y : Nat) < x
  · exact (hzero x x.2 y (by omega)).symm
  · rw [← h3.herm y y.2 x x.2, hzero y y.2 x (by omega), star_zero]

end DLAF
