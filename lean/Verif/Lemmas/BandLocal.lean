import Verif.Lemmas.BandRace
/- What the actions of the reduction to tridiagonal form touch. -/
namespace DLAF
open scoped Classical
open Sem
variable {K : Type*} [RCLike K]

/-! ### addresses -/

theorem ld_succ {E : BtEnv K} (hb : 2 ≤ E.b) : E.ld + 1 = 2 * E.b := by unfold BtEnv.ld; omega

theorem ptr_eq {E : BtEnv K} (hb : 2 ≤ E.b) (o j : Nat) : E.ptr o j = j * (2 * E.b) + o := by
  unfold BtEnv.ptr; rw [ld_succ hb]

/-- Address of element `(r, c)` of a matrix with leading dimension `ld` in the compact band. -/
theorem addr_eq {E : BtEnv K} (hb : 2 ≤ E.b) {o j r c : Nat} (h : c ≤ o + r) :
    E.ptr o j + r + c * E.ld = (j + c) * (2 * E.b) + (o + r - c) := by
  rw [ptr_eq hb]
  have h1 : c * (2 * E.b) = c * E.ld + c := by rw [← ld_succ hb, Nat.mul_add, Nat.mul_one]
  rw [Nat.add_mul]
  omega

theorem col_addr {B x o : Nat} (h : o < B) : (x * B + o) / B = x := by
  rw [Nat.add_comm, Nat.mul_comm, Nat.add_mul_div_left _ _ (by omega), Nat.div_eq_of_lt h, Nat.zero_add]

theorem off_addr {B x o : Nat} (h : o < B) : (x * B + o) % B = o := by
  rw [Nat.add_comm, Nat.mul_comm, Nat.add_mul_mod_self_left, Nat.mod_eq_of_lt h]

theorem addr_col {E : BtEnv K} (hb : 2 ≤ E.b) {o j r c : Nat} (h : c ≤ o + r) (h2 : o + r - c < 2 * E.b) :
    (E.ptr o j + r + c * E.ld) / (2 * E.b) = j + c := by
  rw [addr_eq hb h, col_addr h2]

/-! ### windows -/

theorem putW_in {mem : Nat → K} {p ld m n : Nat} {sel : Nat → Nat → Prop} {g : Nat → Nat → K} {r c : Nat} (hm : m ≤ ld)
    (hr : r < m) (hc : c < n) (hs : sel r c) : putW mem p ld m n sel g (p + r + c * ld) = g r c := by
  unfold putW
  have h1 : p + r + c * ld - p = c * ld + r := by omega
  have h2 : (c * ld + r) % ld = r := off_addr (by omega)
  have h3 : (c * ld + r) / ld = c := col_addr (by omega)
  rw [h1, h2, h3, if_pos ⟨by omega, hr, hc, hs⟩]

theorem putW_out {mem : Nat → K} {p ld m n : Nat} {sel : Nat → Nat → Prop} {g : Nat → Nat → K} {a : Nat}
    (h : ∀ r c, r < m → c < n → sel r c → a ≠ p + r + c * ld) : putW mem p ld m n sel g a = mem a := by
  unfold putW
  refine if_neg fun h' => ?_
  obtain ⟨h1, h2, h3, h4⟩ := h'
  refine h _ _ h2 h3 h4 ?_
  have := Nat.div_add_mod (a - p) ld
  rw [Nat.mul_comm] at this
  omega

/-- Agreement on columns of the band. -/
def AgreeCols (b lo hi : Nat) (m m' : Nat → K) : Prop := ∀ a, lo ≤ a / (2 * b) → a / (2 * b) < hi → m a = m' a

/-- A change of the memory that stays in columns of the band. -/
def MemLocal (b lo hi : Nat) (g : (Nat → K) → Nat → K) : Prop :=
  (∀ mem a, ¬ (lo ≤ a / (2 * b) ∧ a / (2 * b) < hi) → g mem a = mem a) ∧
  ∀ mem mem', AgreeCols b lo hi mem mem' → AgreeCols b lo hi (g mem) (g mem')

theorem memLocal_putW {b lo hi p ld m n : Nat} {sel : Nat → Nat → Prop} {g : (Nat → K) → Nat → Nat → K} (hm : m ≤ ld)
    (hcol : ∀ r c, r < m → c < n → sel r c → lo ≤ (p + r + c * ld) / (2 * b) ∧ (p + r + c * ld) / (2 * b) < hi)
    (hg : ∀ mem mem', AgreeCols b lo hi mem mem' → ∀ r c, r < m → c < n → sel r c → g mem r c = g mem' r c) :
    MemLocal b lo hi fun mem => putW mem p ld m n sel (g mem) := by
  refine ⟨fun mem a ha => putW_out fun r c h1 h2 h3 h4 => ha ?_, fun mem mem' hag a h1 h2 => ?_⟩
  · rw [h4]; exact hcol r c h1 h2 h3
  · by_cases h : ∃ r c, r < m ∧ c < n ∧ sel r c ∧ a = p + r + c * ld
    · obtain ⟨r, c, hr, hc, hs, ha⟩ := h
      subst ha
      show putW _ _ _ _ _ _ _ _ = putW _ _ _ _ _ _ _ _
      rw [putW_in hm hr hc hs, putW_in hm hr hc hs]
      exact hg mem mem' hag r c hr hc hs
    · have h' : ∀ r c, r < m → c < n → sel r c → a ≠ p + r + c * ld := fun r c h1 h2 h3 h4 => h ⟨r, c, h1, h2, h3, h4⟩
      show putW _ _ _ _ _ _ _ _ = putW _ _ _ _ _ _ _ _
      rw [putW_out h', putW_out h']
      exact hag a h1 h2

theorem MemLocal.comp {b lo hi : Nat} {f g : (Nat → K) → Nat → K} (hf : MemLocal b lo hi f) (hg : MemLocal b lo hi g) :
    MemLocal b lo hi fun mem => g (f mem) :=
  ⟨fun mem a ha => (hg.1 _ a ha).trans (hf.1 _ a ha), fun m m' h => hg.2 _ _ (hf.2 _ _ h)⟩

theorem MemLocal.id {b lo hi : Nat} : MemLocal (K := K) b lo hi fun mem => mem := ⟨fun _ _ _ => rfl, fun _ _ h => h⟩

theorem MemLocal.mono {b lo hi lo' hi' : Nat} {f : (Nat → K) → Nat → K} (hf : MemLocal b lo hi f) (h1 : lo' ≤ lo) (h2 : hi ≤ hi') :
    MemLocal b lo' hi' f := by
  refine ⟨fun mem a ha => hf.1 mem a (by omega), fun m m' h a ha hb => ?_⟩
  by_cases hc : lo ≤ a / (2 * b) ∧ a / (2 * b) < hi
  · exact hf.2 m m' (fun a' h3 h4 => h a' (by omega) (by omega)) a hc.1 hc.2
  · rw [hf.1 m a hc, hf.1 m' a hc]; exact h a ha hb

/-! ### what a worker does -/

/-- What a worker does stays in columns of the band. -/
def WkLocal (b lo hi : Nat) (f : Wk K → Wk K) : Prop :=
  (∀ x a, ¬ (lo ≤ a / (2 * b) ∧ a / (2 * b) < hi) → (f x).mem a = x.mem a) ∧
  ∀ x y : Wk K, x.tau = y.tau → x.v = y.v → AgreeCols b lo hi x.mem y.mem →
    (f x).tau = (f y).tau ∧ (f x).v = (f y).v ∧ AgreeCols b lo hi (f x).mem (f y).mem

theorem WkLocal.comp {b lo hi : Nat} {f g : Wk K → Wk K} (hf : WkLocal b lo hi f) (hg : WkLocal b lo hi g) :
    WkLocal b lo hi fun x => g (f x) := by
  refine ⟨fun x a ha => by rw [hg.1 _ a ha, hf.1 _ a ha], fun x y h1 h2 h3 => ?_⟩
  obtain ⟨h4, h5, h6⟩ := hf.2 x y h1 h2 h3
  exact hg.2 _ _ h4 h5 h6

theorem WkLocal.of_mem {b lo hi : Nat} {g : K → (Nat → K) → (Nat → K) → Nat → K} (hg : ∀ tau v, MemLocal b lo hi (g tau v)) :
    WkLocal b lo hi fun x => { x with mem := g x.tau x.v x.mem } := by
  refine ⟨fun x a ha => (hg _ _).1 _ a ha, fun x y h1 h2 h3 => ⟨h1, h2, ?_⟩⟩
  show AgreeCols b lo hi (g x.tau x.v x.mem) (g y.tau y.v y.mem)
  rw [h1, h2]
  exact (hg _ _).2 _ _ h3

theorem btView_ext {s s' : BtSt K} (h : ∀ c, btView c s = btView c s') : s = s' := by
  cases s with
  | mk mem tau v refl d e =>
    cases s' with
    | mk mem' tau' v' refl' d' e' =>
      have h1 : mem = mem' := funext fun a => h (.mem a)
      have h2 : tau = tau' := funext fun w => congrArg Prod.fst (h (.worker w))
      have h3 : v = v' := funext fun w => congrArg Prod.snd (h (.worker w))
      have h4 : refl = refl' := funext fun x => funext fun y => h (.refl x y)
      have h5 : d = d' := funext fun i => congrArg Prod.fst (congrArg ULift.down (h (.trid i)))
      have h6 : e = e' := funext fun i => congrArg Prod.snd (congrArg ULift.down (h (.trid i)))
      rw [h1, h2, h3, h4, h5, h6]

theorem onWorker_local {b lo hi w : Nat} {f : Wk K → Wk K} (hf : WkLocal b lo hi f) :
    Local btView (fun c => isWorker w c ∨ bandCols b lo hi c) (onWorker w f) := by
  refine ⟨fun s c hc => ?_, fun s s' hs c hc => ?_⟩
  · cases c with
    | mem a => exact hf.1 _ a fun h => hc (Or.inr h)
    | worker i =>
      have hi : ¬ i = w := fun h => hc (Or.inl (by rw [h]; rfl))
      show ((if i = w then _ else s.tau i), (if i = w then _ else s.v i)) = (s.tau i, s.v i)
      rw [if_neg hi, if_neg hi]
    | refl x y => rfl
    | trid i => rfl
  · have hw := hs (.worker w) (Or.inl rfl)
    have hm : AgreeCols b lo hi s.mem s'.mem := fun a h1 h2 => hs (.mem a) (Or.inr ⟨h1, h2⟩)
    obtain ⟨h1, h2, h3⟩ := hf.2 ⟨s.mem, s.tau w, s.v w⟩ ⟨s'.mem, s'.tau w, s'.v w⟩ (congrArg Prod.fst hw) (congrArg Prod.snd hw) hm
    cases c with
    | mem a =>
      rcases hc with hc | hc
      · cases hc
      · exact h3 a hc.1 hc.2
    | worker i =>
      rcases hc with hc | hc
      · have hi : i = w := BtCell.worker.inj hc
        show ((if i = w then (f ⟨s.mem, s.tau w, s.v w⟩).tau else s.tau i), (if i = w then (f ⟨s.mem, s.tau w, s.v w⟩).v else s.v i)) =
          ((if i = w then (f ⟨s'.mem, s'.tau w, s'.v w⟩).tau else s'.tau i),
            (if i = w then (f ⟨s'.mem, s'.tau w, s'.v w⟩).v else s'.v i))
        rw [if_pos hi, if_pos hi, if_pos hi, if_pos hi, h1, h2]
      · exact hc.elim
    | refl x y => rcases hc with hc | hc; cases hc; exact hc.elim
    | trid i => rcases hc with hc | hc; cases hc; exact hc.elim

theorem hhReflector_local {E : BtEnv K} (hb : 2 ≤ E.b) {n o j lo hi : Nat} (hn : o + n ≤ 2 * E.b) (hn0 : 0 < n) (h1 : lo ≤ j)
    (h2 : j < hi) :
    WkLocal E.b lo hi (hhReflector E n (E.ptr o j)) := by
  have hcol : ∀ i < n, (E.ptr o j + i) / (2 * E.b) = j := by
    intro i hi'
    have := addr_col hb (o := o) (j := j) (r := i) (c := 0) (by omega) (by omega)
    rw [Nat.zero_mul, Nat.add_zero, Nat.add_zero] at this
    exact this
  refine ⟨fun x a ha => ?_, fun x y ht hv hm => ?_⟩
  · show (if a = E.ptr o j then _ else if E.ptr o j < a ∧ a < E.ptr o j + n then _ else x.mem a) = _
    have : ∀ i < n, a ≠ E.ptr o j + i := by
      intro i hi' he
      rw [he, hcol i hi'] at ha
      exact ha ⟨h1, h2⟩
    rw [if_neg (by have := this 0 hn0; omega), if_neg (fun h => this (a - E.ptr o j) (by omega) (by omega))]
  · have l0 : (fun i : Fin n => x.mem (E.ptr o j + i.val)) = fun i : Fin n => y.mem (E.ptr o j + i.val) := funext fun i =>
      hm _ (by rw [hcol i i.2]; exact h1) (by rw [hcol i i.2]; exact h2)
    have l1 := congrArg (fun q => (E.larfg n q).1) l0
    have l2 := congrArg (fun q => (E.larfg n q).2.1) l0
    have l3 := congrArg (fun q => (E.larfg n q).2.2) l0
    refine ⟨l2, ?_, fun a ha1 ha2 => ?_⟩
    · funext i
      show (if i = 0 then _ else if i < n then _ else x.v i) = if i = 0 then _ else if i < n then _ else y.v i
      by_cases h0 : i = 0
      · rw [if_pos h0, if_pos h0]
      · rw [if_neg h0, if_neg h0]
        by_cases hin : i < n
        · rw [if_pos hin, if_pos hin, l3]
        · rw [if_neg hin, if_neg hin, hv]
    · show (if a = E.ptr o j then _ else if E.ptr o j < a ∧ a < E.ptr o j + n then _ else x.mem a) =
        if a = E.ptr o j then _ else if E.ptr o j < a ∧ a < E.ptr o j + n then _ else y.mem a
      by_cases h0 : a = E.ptr o j
      · rw [if_pos h0, if_pos h0, l1]
      · rw [if_neg h0, if_neg h0]
        by_cases h3 : E.ptr o j < a ∧ a < E.ptr o j + n
        · rw [if_pos h3, if_pos h3]
        · rw [if_neg h3, if_neg h3]
          exact hm a ha1 ha2

theorem applyHerm_local {E : BtEnv K} (hb : 2 ≤ E.b) {n j lo hi : Nat} (hn : n ≤ E.b) (h1 : lo ≤ j) (h2 : j + n ≤ hi) (tau : K)
    (v : Nat → K) : MemLocal E.b lo hi (applyHerm n tau v (E.ptr 0 j) E.ld) := by
  have hcol : ∀ r c, r < n → c ≤ r → lo ≤ (E.ptr 0 j + r + c * E.ld) / (2 * E.b) ∧ (E.ptr 0 j + r + c * E.ld) / (2 * E.b) < hi := by
    intro r c hr hc
    rw [addr_col hb (by omega) (by omega)]
    omega
  have hld : E.b ≤ E.ld := by unfold BtEnv.ld; omega
  unfold applyHerm
  dsimp only
  refine memLocal_putW (by omega) (fun r c hr _ hs => hcol r c hr hs) fun mem mem' hag r c hr hc hs => ?_
  have hread : ∀ r c, r < n → c ≤ r → mem (E.ptr 0 j + r + c * E.ld) = mem' (E.ptr 0 j + r + c * E.ld) := fun r c hr hc =>
    hag _ (hcol r c hr hc).1 (hcol r c hr hc).2
  have hw0 : ∀ r, r < n → (∑ c ∈ Finset.range n, (if c ≤ r then mem (E.ptr 0 j + r + c * E.ld) else
      star (mem (E.ptr 0 j + c + r * E.ld))) * v c) = ∑ c ∈ Finset.range n, (if c ≤ r then mem' (E.ptr 0 j + r + c * E.ld) else
      star (mem' (E.ptr 0 j + c + r * E.ld))) * v c := by
    intro r hr
    refine Finset.sum_congr rfl fun c hc => ?_
    have hc' := Finset.mem_range.1 hc
    by_cases h : c ≤ r
    · rw [if_pos h, if_pos h, hread r c hr h]
    · rw [if_neg h, if_neg h, hread c r hc' (by omega)]
  have hc : c < n := by have : c ≤ r := hs; omega
  have hdot : (∑ r ∈ Finset.range n, star (tau * ∑ c ∈ Finset.range n, (if c ≤ r then mem (E.ptr 0 j + r + c * E.ld) else
      star (mem (E.ptr 0 j + c + r * E.ld))) * v c) * v r) =
      ∑ r ∈ Finset.range n, star (tau * ∑ c ∈ Finset.range n, (if c ≤ r then mem' (E.ptr 0 j + r + c * E.ld) else
      star (mem' (E.ptr 0 j + c + r * E.ld))) * v c) * v r :=
    Finset.sum_congr rfl fun r hr => by rw [hw0 r (Finset.mem_range.1 hr)]
  rw [hread r c hr hs, hdot, hw0 r hr, hw0 c hc]

theorem applyLeft_local {E : BtEnv K} (hb : 2 ≤ E.b) {m n o j lo hi : Nat} (hm : m ≤ E.b) (hn : n ≤ o + 1) (ho : o + m ≤ 2 * E.b)
    (h1 : lo ≤ j) (h2 : j + n ≤ hi) (tau : K) (v : Nat → K) : MemLocal E.b lo hi (applyLeft m n tau v (E.ptr o j) E.ld) := by
  have hcol : ∀ r c, r < m → c < n → lo ≤ (E.ptr o j + r + c * E.ld) / (2 * E.b) ∧ (E.ptr o j + r + c * E.ld) / (2 * E.b) < hi := by
    intro r c hr hc
    rw [addr_col hb (by omega) (by omega)]
    omega
  have hld : E.b ≤ E.ld := by unfold BtEnv.ld; omega
  unfold applyLeft
  dsimp only
  refine memLocal_putW (by omega) (fun r c hr hc _ => hcol r c hr hc) fun mem mem' hag r c hr hc hs => ?_
  have hread : ∀ r c, r < m → c < n → mem (E.ptr o j + r + c * E.ld) = mem' (E.ptr o j + r + c * E.ld) := fun r c hr hc =>
    hag _ (hcol r c hr hc).1 (hcol r c hr hc).2
  rw [hread r c hr hc, Finset.sum_congr rfl fun r hr => by rw [hread r c (Finset.mem_range.1 hr) hc]]

theorem applyRight_local {E : BtEnv K} (hb : 2 ≤ E.b) {m n o j lo hi : Nat} (hm : m ≤ E.b) (hn : n ≤ o + 1) (ho : o + m ≤ 2 * E.b)
    (h1 : lo ≤ j) (h2 : j + n ≤ hi) (tau : K) (v : Nat → K) : MemLocal E.b lo hi (applyRight m n tau v (E.ptr o j) E.ld) := by
  have hcol : ∀ r c, r < m → c < n → lo ≤ (E.ptr o j + r + c * E.ld) / (2 * E.b) ∧ (E.ptr o j + r + c * E.ld) / (2 * E.b) < hi := by
    intro r c hr hc
    rw [addr_col hb (by omega) (by omega)]
    omega
  have hld : E.b ≤ E.ld := by unfold BtEnv.ld; omega
  unfold applyRight
  dsimp only
  refine memLocal_putW (by omega) (fun r c hr hc _ => hcol r c hr hc) fun mem mem' hag r c hr hc hs => ?_
  have hread : ∀ r c, r < m → c < n → mem (E.ptr o j + r + c * E.ld) = mem' (E.ptr o j + r + c * E.ld) := fun r c hr hc =>
    hag _ (hcol r c hr hc).1 (hcol r c hr hc).2
  rw [hread r c hr hc, Finset.sum_congr rfl fun c hc => by rw [hread r c hr (Finset.mem_range.1 hc)]]

theorem stepFull_local {E : BtEnv K} (hb : 2 ≤ E.b) {sw st : Nat} (h : 1 + sw + st * E.b < E.size) :
    WkLocal E.b (1 + sw + st * E.b) (min (1 + sw + st * E.b + E.b) E.size) (stepFull E sw st) := by
  unfold stepFull
  dsimp only
  unfold sizeHHR firstRow
  generalize 1 + sw + st * E.b = j at h ⊢
  have w1 : WkLocal E.b j (min (j + E.b) E.size) fun x : Wk K =>
      { x with mem := applyHerm (min E.b (E.size - j)) x.tau x.v (E.ptr 0 j) E.ld x.mem } :=
    WkLocal.of_mem fun tau v => applyHerm_local hb (by omega) (by omega) (by omega) tau v
  have w2 : 0 < min E.b (E.size - E.b - j) → WkLocal E.b j (min (j + E.b) E.size) fun x : Wk K =>
      { x with
        mem := applyRight (min E.b (E.size - E.b - j)) (min E.b (E.size - j)) x.tau x.v (E.ptr (min E.b (E.size - j)) j) E.ld x.mem } :=
      fun hm =>
    WkLocal.of_mem fun tau v => applyRight_local hb (by omega) (by omega) (by omega) (by omega) (by omega) tau v
  have w3 : 1 < min E.b (E.size - E.b - j) → WkLocal E.b j (min (j + E.b) E.size) fun x : Wk K =>
      hhReflector E (min E.b (E.size - E.b - j)) (E.ptr (min E.b (E.size - j)) j) x := fun hm =>
    hhReflector_local hb (by omega) (by omega) (by omega) (by omega)
  have w4 : 1 < min E.b (E.size - E.b - j) → WkLocal E.b j (min (j + E.b) E.size) fun x : Wk K =>
      { x with
        mem := applyLeft (min E.b (E.size - E.b - j)) (min E.b (E.size - j) - 1) x.tau x.v
          (E.ptr (min E.b (E.size - j) - 1) (j + 1)) E.ld x.mem } := fun hm =>
    WkLocal.of_mem fun tau v => applyLeft_local hb (by omega) (by omega) (by omega) (by omega) (by omega) tau v
  by_cases hm : 1 < min E.b (E.size - E.b - j)
  · have := ((w1.comp (w2 (by omega))).comp (w3 hm)).comp (w4 hm)
    simp only [if_pos hm, if_pos (show 0 < min E.b (E.size - E.b - j) by omega)]
    exact this
  · by_cases hm0 : 0 < min E.b (E.size - E.b - j)
    · have := w1.comp (w2 hm0)
      simp only [if_neg hm, if_pos hm0]
      exact this
    · simp only [if_neg hm, if_neg hm0]
      exact w1

/-! ### copies -/

theorem onMem_local {b lo hi : Nat} {g : (Nat → K) → Nat → K} (hg : MemLocal b lo hi g) :
    Local btView (bandCols b lo hi) fun s : BtSt K => { s with mem := g s.mem } := by
  refine ⟨fun s c hc => ?_, fun s s' hs c hc => ?_⟩
  · cases c with
    | mem a => exact hg.1 _ a hc
    | worker i => rfl
    | refl x y => rfl
    | trid i => rfl
  · obtain ⟨a, rfl, h1, h2⟩ := bandCols_mem hc
    exact hg.2 _ _ (fun a' h3 h4 => hs (.mem a') ⟨h3, h4⟩) a h1 h2

theorem addr2_col {E : BtEnv K} (hb : 2 ≤ E.b) {o j r c : Nat} (h2 : o + r < 2 * E.b) :
    (E.ptr o j + r + c * (E.ld + 1)) / (2 * E.b) = j + c := by
  rw [ptr_eq hb, ld_succ hb, show j * (2 * E.b) + o + r + c * (2 * E.b) = (j + c) * (2 * E.b) + (o + r) by rw [Nat.add_mul]; omega,
    col_addr h2]

theorem copyDiag_local {E : BtEnv K} (ok : BtOK E) {k : Nat} (hk : k < E.nt) :
    Local btView (bandCols E.b (k * E.nb) (min ((k + 1) * E.nb) E.size)) (copyDiag E k) := by
  have hb := ok.hb
  have hlt := ok.lt_size hk
  have hld := ld_succ (E := E) hb
  unfold copyDiag
  dsimp only
  rw [show (k + 1) * E.nb = k * E.nb + E.nb by rw [Nat.add_mul, Nat.one_mul]]
  generalize k * E.nb = j at hlt ⊢
  refine onMem_local (g := fun mem => putW (if 0 < min E.nb (E.size - j) - E.b then putW (putW mem (E.ptr (E.b + 1) j) (E.ld + 1)
    (E.b - 1) (min E.nb (E.size - j)) all2 fun _ _ => 0) (E.ptr 0 j) (E.ld + 1) (E.b + 1) (min E.nb (E.size - j) - E.b) all2 _ else
    putW mem (E.ptr (E.b + 1) j) (E.ld + 1) (E.b - 1) (min E.nb (E.size - j)) all2 fun _ _ => 0) _ _ _ _ _ _) ?_
  have m1 : MemLocal E.b j (min (j + E.nb) E.size) fun mem : Nat → K => putW mem (E.ptr (E.b + 1) j) (E.ld + 1) (E.b - 1)
      (min E.nb (E.size - j)) all2 fun _ _ => 0 := by
    refine memLocal_putW (by omega) (fun r c hr hc _ => ?_) fun _ _ _ _ _ _ _ _ => rfl
    rw [addr2_col hb (by omega)]
    omega
  have m2 : MemLocal E.b j (min (j + E.nb) E.size) fun mem : Nat → K => putW mem (E.ptr 0 j) (E.ld + 1) (E.b + 1)
      (min E.nb (E.size - j) - E.b) all2 fun r c => E.a (j + (c + r)) (j + c) := by
    refine memLocal_putW (by omega) (fun r c hr hc _ => ?_) fun _ _ _ _ _ _ _ _ => rfl
    rw [addr2_col hb (by omega)]
    omega
  have m3 : MemLocal E.b j (min (j + E.nb) E.size) fun mem : Nat → K => putW mem (E.ptr 0 (j + (min E.nb (E.size - j) - E.b))) E.ld
      (min E.b (min E.nb (E.size - j))) (min E.b (min E.nb (E.size - j))) lower2 fun r c =>
        E.a (j + (min E.nb (E.size - j) - E.b + r)) (j + (min E.nb (E.size - j) - E.b + c)) := by
    refine memLocal_putW (by omega) (fun r c hr hc hs => ?_) fun _ _ _ _ _ _ _ _ => rfl
    have hs' : c ≤ r := hs
    rw [addr_col hb (by omega) (by omega)]
    omega
  by_cases h0 : 0 < min E.nb (E.size - j) - E.b
  · simp only [if_pos h0]
    exact (m1.comp m2).comp m3
  · simp only [if_neg h0]
    exact m1.comp m3

theorem copyOffDiag_local {E : BtEnv K} (ok : BtOK E) {k : Nat} (hk : k + 1 < E.nt) :
    Local btView (bandCols E.b (k * E.nb) (min ((k + 1) * E.nb) E.size)) (copyOffDiag E k) := by
  have hb := ok.hb
  have hlt := ok.lt_size hk
  have hld := ld_succ (E := E) hb
  have hbn : E.b ≤ E.nb := by
    have := ok.nbdiv
    have hnb := ok.hnb
    rcases Nat.eq_zero_or_pos (E.nb / E.b) with h | h
    · rw [h] at this; omega
    · have := Nat.mul_le_mul_right E.b h; omega
  unfold copyOffDiag
  dsimp only
  rw [show (k + 1) * E.nb = k * E.nb + E.nb by rw [Nat.add_mul, Nat.one_mul]] at hlt ⊢
  generalize k * E.nb = j at hlt ⊢
  generalize hrows : min E.nb (E.size - (j + E.nb)) = rows
  refine onMem_local (g := fun mem => if min E.b rows < E.b then putW (putW mem (E.ptr E.b (j + (E.nb - E.b))) E.ld
    (min E.b rows) (min E.b rows) upper2 _) _ _ _ _ _ _ else putW mem (E.ptr E.b (j + (E.nb - E.b))) E.ld (min E.b rows) (min E.b rows)
      upper2 _) ?_
  have m1 : MemLocal E.b j (min (j + E.nb) E.size) fun mem : Nat → K => putW mem (E.ptr E.b (j + (E.nb - E.b))) E.ld
      (min E.b rows) (min E.b rows) upper2 fun r c => E.a (j + E.nb + r) (j + (E.nb - E.b + c)) := by
    refine memLocal_putW (by omega) (fun r c hr hc hs => ?_) fun _ _ _ _ _ _ _ _ => rfl
    have hs' : r ≤ c := hs
    rw [addr_col hb (by omega) (by omega)]
    omega
  by_cases h0 : min E.b rows < E.b
  · simp only [if_pos h0]
    refine MemLocal.comp m1 (memLocal_putW (g := fun _ r c => E.a (j + E.nb + r) (j + (E.nb - E.b + min E.b rows + c))) (by omega) (fun r c hr hc _ => ?_) fun _ _ _ _ _ _ _ _ => rfl)
    rw [show E.ptr E.b (j + (E.nb - E.b)) + E.ld * min E.b rows + r + c * E.ld =
      E.ptr E.b (j + (E.nb - E.b)) + r + (min E.b rows + c) * E.ld by rw [Nat.add_mul, Nat.mul_comm E.ld]; omega,
      addr_col hb (by omega) (by omega)]
    omega
  · simp only [if_neg h0]
    exact m1

theorem copyTridiag_local {E : BtEnv K} (hb : 2 ≤ E.b) {start nd ne lo hi : Nat} (h1 : lo ≤ start) (h2 : start + nd ≤ hi)
    (h3 : start + ne ≤ hi) :
    Local btView (fun c => bandCols E.b lo hi c ∨ tridRows lo hi c) (copyTridiag E start nd ne start) := by
  refine ⟨fun s c hc => ?_, fun s s' hs c hc => ?_⟩
  · cases c with
    | mem a => rfl
    | worker w => rfl
    | refl x y => rfl
    | trid i =>
      have hi' : ¬ (lo ≤ i ∧ i < hi) := fun h => hc (Or.inr h)
      show ULift.up ((if start ≤ i ∧ i < start + nd then _ else s.d i), (if start ≤ i ∧ i < start + ne then _ else s.e i)) =
        ULift.up (s.d i, s.e i)
      rw [if_neg (by omega), if_neg (by omega)]
  · cases c with
    | mem a => exact hs (.mem a) hc
    | worker w => rcases hc with hc | hc <;> exact hc.elim
    | refl x y => rcases hc with hc | hc <;> exact hc.elim
    | trid i =>
      have hrd : ∀ o x, o < 2 → lo ≤ start + x → start + x < hi →
          s.mem (E.ptr o start + x * (E.ld + 1)) = s'.mem (E.ptr o start + x * (E.ld + 1)) := by
        intro o x ho h4 h5
        have := addr2_col hb (o := o) (j := start) (r := 0) (c := x) (by omega)
        rw [Nat.add_zero] at this
        exact hs (.mem _) (Or.inl ⟨by rw [this]; exact h4, by rw [this]; exact h5⟩)
      have hi' : lo ≤ i ∧ i < hi := by
        rcases hc with hc | hc
        · exact hc.elim
        · exact hc
      have ht : ULift.up (s.d i, s.e i) = ULift.up (s'.d i, s'.e i) := hs (.trid i) hc
      have htd : s.d i = s'.d i := congrArg Prod.fst (congrArg ULift.down ht)
      have hte : s.e i = s'.e i := congrArg Prod.snd (congrArg ULift.down ht)
      show ULift.up ((if start ≤ i ∧ i < start + nd then RCLike.re (s.mem (E.ptr 0 start + (i - start) * (E.ld + 1))) else s.d i),
          (if start ≤ i ∧ i < start + ne then RCLike.re (s.mem (E.ptr 1 start + (i - start) * (E.ld + 1))) else s.e i)) =
        ULift.up ((if start ≤ i ∧ i < start + nd then RCLike.re (s'.mem (E.ptr 0 start + (i - start) * (E.ld + 1))) else s'.d i),
          (if start ≤ i ∧ i < start + ne then RCLike.re (s'.mem (E.ptr 1 start + (i - start) * (E.ld + 1))) else s'.e i))
      congr 1
      refine Prod.ext ?_ ?_
      · show (if _ then _ else _) = if _ then _ else _
        by_cases h : start ≤ i ∧ i < start + nd
        · rw [if_pos h, if_pos h, hrd 0 (i - start) (by omega) (by omega) (by omega)]
        · rw [if_neg h, if_neg h, htd]
      · show (if _ then _ else _) = if _ then _ else _
        by_cases h : start ≤ i ∧ i < start + ne
        · rw [if_pos h, if_pos h, hrd 1 (i - start) (by omega) (by omega) (by omega)]
        · rw [if_neg h, if_neg h, hte]

/-- Where the reflector of a step is stored. -/
theorem refl_pos {E : BtEnv K} (ok : BtOK E) (sw st : Nat) :
    (sw / E.nb + (sw % E.nb / E.b * E.b + st * E.b) / E.nb) * E.nb + (sw % E.nb / E.b * E.b + st * E.b) % E.nb =
      (sw / E.b + st) * E.b ∧ sw / E.nb * E.nb + sw % E.nb = sw := by
  have hnb := ok.hnb
  have hb := ok.hb
  have hq := ok.nbdiv
  have e1 : sw / E.nb * E.nb + sw % E.nb = sw := by rw [Nat.mul_comm]; exact Nat.div_add_mod sw E.nb
  refine ⟨?_, e1⟩
  have e2 := Nat.div_add_mod (sw % E.nb / E.b * E.b + st * E.b) E.nb
  rw [Nat.mul_comm] at e2
  rw [Nat.add_mul, Nat.add_assoc, e2]
  have e3 : sw / E.b = sw / E.nb * (E.nb / E.b) + sw % E.nb / E.b := by
    have h4 : sw = sw % E.nb + E.b * (sw / E.nb * (E.nb / E.b)) := by
      have : E.b * (sw / E.nb * (E.nb / E.b)) = sw / E.nb * E.nb := by
        rw [← Nat.mul_assoc, Nat.mul_comm E.b, Nat.mul_assoc, Nat.mul_comm E.b, hq]
      omega
    conv => lhs; rw [h4]
    rw [Nat.add_mul_div_left _ _ (by omega)]
    omega
  rw [e3, Nat.add_mul, Nat.add_mul, Nat.mul_assoc, hq]
  omega

theorem copyRefl_eq {E : BtEnv K} (ok : BtOK E) (w sw st : Nat) :
    copyRefl E w sw st = fun s => { s with
    refl := fun x y =>
      if y = sw ∧ x = (sw / E.b + st) * E.b then s.tau w
      else if y = sw ∧ (sw / E.b + st) * E.b < x ∧ x < (sw / E.b + st) * E.b + min E.b (E.size - (1 + sw + st * E.b)) then
        s.v w (x - (sw / E.b + st) * E.b)
      else s.refl x y } := by
  obtain ⟨e1, e2⟩ := refl_pos ok sw st
  funext s
  unfold copyRefl sizeHHR firstRow
  dsimp only
  rw [e1, e2]

theorem copyRefl_local {E : BtEnv K} (ok : BtOK E) {w sw st : Nat} (h : 1 + sw + st * E.b < E.size) :
    Local btView (fun c => isWorker w c ∨ reflCol ((sw / E.b + st) * E.b)
      ((sw / E.b + st) * E.b + min E.b (E.size - (1 + sw + st * E.b))) sw c) (copyRefl E w sw st) := by
  have hb := ok.hb
  rw [copyRefl_eq ok]
  generalize (sw / E.b + st) * E.b = p
  refine ⟨fun s c hc => ?_, fun s s' hs c hc => ?_⟩
  · cases c with
    | mem a => rfl
    | worker i => rfl
    | refl x y =>
      have hn : ¬ (p ≤ x ∧ x < p + min E.b (E.size - (1 + sw + st * E.b)) ∧ y = sw) := fun h' => hc (Or.inr h')
      show (if y = sw ∧ x = p then _ else if _ then _ else s.refl x y) = s.refl x y
      rw [if_neg (by omega), if_neg (by omega)]
    | trid i => rfl
  · have hw := hs (.worker w) (Or.inl rfl)
    have h1 : s.tau w = s'.tau w := congrArg Prod.fst hw
    have h2 : s.v w = s'.v w := congrArg Prod.snd hw
    cases c with
    | mem a => exact hs (.mem a) hc
    | worker i => exact hs (.worker i) hc
    | refl x y =>
      have h3 : s.refl x y = s'.refl x y := hs (.refl x y) hc
      show (if y = sw ∧ x = p then s.tau w else if _ then s.v w _ else s.refl x y) =
        if y = sw ∧ x = p then s'.tau w else if _ then s'.v w _ else s'.refl x y
      rw [h1, h2, h3]
    | trid i => exact hs (.trid i) hc

end DLAF
