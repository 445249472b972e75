import Verif.Model.DistBtBand
import Verif.Lemmas.BtBandStep
import Verif.Lemmas.BroadcastPanel
/- The order of the blocks in the distributed back-transformation from tridiagonal to band form. -/
namespace DLAF
namespace DistT2B
open scoped Classical

section reorder
variable {X M : Type*} [Monoid M]

theorem commute_prod {a : M} : ∀ {l : List M}, (∀ x ∈ l, Commute a x) → Commute a l.prod
  | [], _ => Commute.one_right a
  | x :: l, h => by
    rw [List.prod_cons]
    exact (h x List.mem_cons_self).mul_right (commute_prod fun y hy => h y (List.mem_cons_of_mem _ hy))

/-- Two orders of the same factors, if those that change places commute. -/
theorem prod_reorder (f : X → M) {R1 R2 : X → X → Prop} : ∀ (l1 l2 : List X), l1.Perm l2 → l1.Pairwise R1 → l2.Pairwise R2 →
    (∀ a ∈ l1, ∀ b ∈ l1, R1 a b → R2 b a → Commute (f a) (f b)) → (l1.map f).prod = (l2.map f).prod
  | [], l2, hp, _, _, _ => by rw [List.nil_perm.1 hp]
  | a :: t, l2, hp, h1, h2, hc => by
    obtain ⟨u, v, rfl⟩ := List.append_of_mem (hp.subset List.mem_cons_self)
    have hp' : t.Perm (u ++ v) := (List.perm_cons a).1 (hp.trans List.perm_middle)
    rw [List.pairwise_cons] at h1
    rw [List.pairwise_append, List.pairwise_cons] at h2
    have h2' : (u ++ v).Pairwise R2 := List.pairwise_append.2 ⟨h2.1, h2.2.1.2, fun x hx y hy => h2.2.2 x hx y (List.mem_cons_of_mem _ hy)⟩
    have ih := prod_reorder f t (u ++ v) hp' h1.2 h2' fun x hx y hy => hc x (List.mem_cons_of_mem _ hx) y (List.mem_cons_of_mem _ hy)
    have hcu : Commute (f a) (u.map f).prod := by
      refine commute_prod fun y hy => ?_
      obtain ⟨x, hx, rfl⟩ := List.mem_map.1 hy
      have hxt : x ∈ t := hp'.symm.subset (List.mem_append_left _ hx)
      exact hc a List.mem_cons_self x (List.mem_cons_of_mem _ hxt) (h1.1 x hxt) (h2.2.2 x hx a List.mem_cons_self)
    rw [List.map_cons, List.prod_cons, ih, List.map_append, List.prod_append, List.map_append, List.prod_append, List.map_cons, List.prod_cons, ← mul_assoc, hcu.eq, mul_assoc]

end reorder

/-- The order of the local algorithm. -/
def locL (S : Nat → Nat) : Nat → List (Nat × Nat)
  | 0 => []
  | J + 1 => ((List.range (S J)).map fun st => (J + st, J)) ++ locL S J

theorem mem_locL {S : Nat → Nat} {z : Nat × Nat} : ∀ {J : Nat}, z ∈ locL S J ↔ z.2 < J ∧ z.2 ≤ z.1 ∧ z.1 - z.2 < S z.2
  | 0 => by simp [locL]
  | J + 1 => by
    rw [locL, List.mem_append, mem_locL]
    simp only [List.mem_map, List.mem_range]
    constructor
    · rintro (⟨st, h, rfl⟩ | h)
      · exact ⟨by dsimp only; omega, by dsimp only; omega, by dsimp only; rw [Nat.add_sub_cancel_left]; exact h⟩
      · exact ⟨by omega, h.2.1, h.2.2⟩
    · rintro ⟨h1, h2, h3⟩
      by_cases hz : z.2 = J
      · refine .inl ⟨z.1 - z.2, by rw [← hz]; exact h3, ?_⟩
        obtain ⟨i, j⟩ := z
        dsimp only at *
        rw [← hz, Nat.add_sub_cancel' h2]
      · exact .inr ⟨by omega, h2, h3⟩

/-- Before in the local algorithm. -/
def Before (a c : Nat × Nat) : Prop := c.2 < a.2 ∨ (a.2 = c.2 ∧ a.1 < c.1)

theorem locL_sorted (S : Nat → Nat) : ∀ J, (locL S J).Pairwise Before
  | 0 => List.Pairwise.nil
  | J + 1 => by
    rw [locL, List.pairwise_append]
    refine ⟨?_, locL_sorted S J, ?_⟩
    · rw [List.pairwise_map]
      exact List.pairwise_lt_range.imp fun h => .inr ⟨rfl, by dsimp only; omega⟩
    · intro a ha c hc
      obtain ⟨st, _, rfl⟩ := List.mem_map.1 ha
      exact .inl (mem_locL.1 hc).1

theorem range_desc {M : Type*} [Monoid M] (g : Nat → M) : ∀ k, ((List.range k).reverse.map g).prod = descP k g
  | 0 => rfl
  | k + 1 => by
    rw [List.range_succ, List.reverse_append, List.map_append, List.prod_append, range_desc g k]
    simp [descP]

theorem locL_prod {M : Type*} [Monoid M] (S : Nat → Nat) (f : Nat × Nat → M) : ∀ J,
    ((locL S J).reverse.map f).prod = ascP J fun j => descP (S j) fun st => f (j + st, j)
  | 0 => rfl
  | J + 1 => by
    rw [locL, List.reverse_append, List.map_append, List.prod_append, locL_prod S f J, ascP_succ, ← List.map_reverse, List.map_map, ← range_desc]
    rfl

/-- Before in the distributed algorithm. -/
def Earlier (a c : Nat × Nat) : Prop := (a.1 : Int) - 2 * a.2 < c.1 - 2 * c.2 ∨ ((a.1 : Int) - 2 * a.2 = c.1 - 2 * c.2 ∧ a.2 < c.2)

theorem epochs_sorted (cplx : Bool) (n b : Nat) : (epochs cplx n b).Pairwise Earlier := by
  unfold epochs
  rw [List.pairwise_flatMap]
  constructor
  · intro k _
    refine List.Pairwise.sublist (List.takeWhile_sublist _) ?_
    rw [List.pairwise_map]
    exact List.pairwise_lt_range.imp fun h => .inr ⟨by dsimp only; push_cast; omega, by dsimp only; omega⟩
  · rw [List.pairwise_reverse]
    have : (irange (1 - (t2bSteps 0 n b : Int)) ((((t2bSweeps cplx n - 1) / b : Nat) : Int) + 1)).Pairwise (· < ·) := by
      unfold irange
      rw [List.pairwise_map]
      exact List.pairwise_lt_range.imp fun h => by omega
    refine this.imp fun {k l} h x hx y hy => ?_
    have hx := (List.takeWhile_sublist _).subset hx
    have hy := (List.takeWhile_sublist _).subset hy
    obtain ⟨s, _, rfl⟩ := List.mem_map.1 hx
    obtain ⟨t, _, rfl⟩ := List.mem_map.1 hy
    left
    dsimp only
    omega

theorem steps_pos {n b s t : Nat} (hb : 2 ≤ b) : t < t2bSteps s n b ↔ (s + 2 = n ∧ t = 0) ∨ t * b + s + 2 < n := by
  unfold t2bSteps
  by_cases h : s + 2 = n
  · rw [if_pos h]
    constructor
    · intro h1; exact .inl ⟨h, by omega⟩
    · rintro (h1 | h1)
      · omega
      · have := Nat.zero_le (t * b); omega
  · rw [if_neg h, lt_ceil (by omega)]
    constructor
    · intro h1; exact .inr (by omega)
    · rintro (h1 | h1)
      · exact absurd h1.1 h
      · omega

/-- The blocks. -/
def IsBlock (cplx : Bool) (n b : Nat) (z : Nat × Nat) : Prop :=
  z.2 ≤ (t2bSweeps cplx n - 1) / b ∧ z.2 ≤ z.1 ∧ z.1 - z.2 < t2bSteps (z.2 * b) n b

theorem take_while_mem {α : Type*} {p : α → Bool} : ∀ {l : List α} {x : α}, x ∈ l.takeWhile p → p x = true
  | [], _, h => by simp at h
  | a :: l, x, h => by
    rw [List.takeWhile_cons] at h
    by_cases ha : p a = true
    · rw [if_pos ha] at h
      rcases List.mem_cons.1 h with rfl | h
      · exact ha
      · exact take_while_mem h
    · rw [if_neg ha] at h
      simp at h

theorem mem_take_while {p : Nat → Bool} {n t : Nat} (ht : t < n) (h : ∀ s ≤ t, p s = true) : t ∈ (List.range n).takeWhile p := by
  have e : List.range n = List.range' 0 n := List.range_eq_range'
  rw [e]
  have key : ∀ (n a : Nat), a ≤ t → t < a + n → t ∈ (List.range' a n).takeWhile p := by
    intro n
    induction n with
    | zero => intro a h1 h2; omega
    | succ n ih =>
      intro a h1 h2
      rw [List.range'_succ, List.takeWhile_cons, if_pos (h a h1)]
      by_cases ha : a = t
      · rw [ha]; exact List.mem_cons_self
      · exact List.mem_cons_of_mem _ (ih (a + 1) (by omega) (by omega))
  exact key n 0 (by omega) (by omega)

theorem mem_epochs {cplx : Bool} {n b : Nat} (hb : 2 ≤ b) (hn : (if cplx then 1 else 2) < n) {z : Nat × Nat} : z ∈ epochs cplx n b ↔ IsBlock cplx n b z := by
  have hsw : t2bSweeps cplx n = n - (if cplx then 1 else 2) := by unfold t2bSweeps; cases cplx <;> rfl
  have hc12 : (if cplx then 1 else 2) = 1 ∨ (if cplx then 1 else 2) = 2 := by cases cplx <;> simp
  generalize hcc : (if cplx then 1 else 2) = cc at *
  have hdm := Nat.div_add_mod (t2bSweeps cplx n - 1) b
  have hml := Nat.mod_lt (t2bSweeps cplx n - 1) (show 0 < b by omega)
  obtain ⟨i, j⟩ := z
  unfold epochs IsBlock
  simp only [List.mem_flatMap, List.mem_reverse, mem_irange]
  generalize hJ : (t2bSweeps cplx n - 1) / b = J at *
  constructor
  · rintro ⟨k, ⟨hk1, hk2⟩, hz⟩
    have hcond := take_while_mem hz
    have hz := (List.takeWhile_sublist _).subset hz
    obtain ⟨t, ht, he⟩ := List.mem_map.1 hz
    obtain ⟨rfl, rfl⟩ := Prod.mk.inj he
    rw [decide_eq_true_iff] at hcond
    dsimp only at hcond ⊢
    have hji : k.toNat + t ≤ k.natAbs + 2 * t := by omega
    have hst : k.natAbs + 2 * t - (k.toNat + t) < t2bSteps ((k.toNat + t) * b) n b := by omega
    refine ⟨?_, hji, hst⟩
    by_contra hcon
    rw [steps_pos hb] at hst
    have h1 : (J + 1) * b ≤ (k.toNat + t) * b := Nat.mul_le_mul_right _ (by omega)
    rw [Nat.add_mul, Nat.mul_comm J b] at h1
    rcases hst with ⟨h2, h3⟩ | h2
    · have : t = 0 := by omega
      omega
    · have := Nat.zero_le ((k.natAbs + 2 * t - (k.toNat + t)) * b)
      omega
  · rintro ⟨h1, h2, h3⟩
    have h3' := (steps_pos hb).1 h3
    have h4 : (i - j) * b + j * b = i * b := by rw [← Nat.add_mul, Nat.sub_add_cancel h2]
    have hjb : j ≤ j * b := Nat.le_mul_of_pos_right _ (by omega)
    have hib : i ≤ i * b := Nat.le_mul_of_pos_right _ (by omega)
    -- the position in the epoch
    refine ⟨2 * (j : Int) - i, ⟨?_, by omega⟩, ?_⟩
    · have : i - 2 * j < t2bSteps 0 n b := by
        rw [steps_pos hb]
        rcases h3' with ⟨h5, h6⟩ | h5
        · by_cases hj0 : j = 0
          · left; subst hj0; omega
          · right
            have : i - 2 * j = 0 := by omega
            rw [this]
            have : 1 * b ≤ j * b := Nat.mul_le_mul_right _ (by omega)
            omega
        · right
          have : (i - 2 * j) * b ≤ (i - j) * b := Nat.mul_le_mul_right _ (by omega)
          omega
      omega
    · rw [List.takeWhile_map]
      refine List.mem_map.2 ⟨if i ≤ 2 * j then i - j else j, mem_take_while ?_ ?_, ?_⟩
      · split <;> omega
      · intro s hs
        rw [Function.comp_apply, decide_eq_true_iff]
        dsimp only
        have hs' : s ≤ i - j ∧ s ≤ j := by split at hs <;> omega
        have key : ∀ u, u ≤ i - j → u ≤ j → i - j - u < t2bSteps ((j - u) * b) n b := by
          intro u hu hu2
          rw [steps_pos hb]
          rcases h3' with ⟨h5, h6⟩ | h5
          · left
            have : u = 0 := by omega
            subst this
            exact ⟨h5, by omega⟩
          · right
            have e1 : (i - j - u) * b ≤ (i - j) * b := Nat.mul_le_mul_right _ (by omega)
            have e2 : (j - u) * b ≤ j * b := Nat.mul_le_mul_right _ (by omega)
            omega
        by_cases hij : i ≤ 2 * j
        · rw [if_pos hij] at hs
          have := key (i - j - s) (by omega) (by omega)
          have e : j - (i - j - s) = (2 * (j : Int) - i).toNat + s := by omega
          rw [e] at this
          omega
        · rw [if_neg hij] at hs
          have := key (j - s) (by omega) (by omega)
          have e : j - (j - s) = (2 * (j : Int) - i).toNat + s := by omega
          rw [e] at this
          omega
      · split <;> refine Prod.ext ?_ ?_ <;> dsimp only <;> omega

variable {K : Type*} [RCLike K]

/-- The product of the reflectors of a block. -/
noncomputable def blkM (cplx : Bool) (n b : Nat) (V : Nat → Nat → K) (z : Nat × Nat) : Matrix (Fin n) (Fin n) K :=
  reflectorProd n (blkV n b V z.2 (z.1 - z.2)) (blkTau b V z.2 (z.1 - z.2))
    (t2bRefls cplx n b ((t2bSweeps cplx n - 1) / b) (t2bSteps (z.2 * b) n b) z.2 (z.1 - z.2))

theorem block_ok {cplx : Bool} {n b : Nat} (hb : 2 ≤ b) (hn : (if cplx then 1 else 2) < n) {z : Nat × Nat} (h : IsBlock cplx n b z) :
    BlkOK n b (z.2 + (z.1 - z.2)) z.2 (t2bRefls cplx n b ((t2bSweeps cplx n - 1) / b) (t2bSteps (z.2 * b) n b) z.2 (z.1 - z.2)) :=
  blk_ok hb hn h.1 h.2.2

theorem reflectorProd_commute {n k l : Nat} {V W : Nat → Nat → K} {s t : Nat → K} (h : ∀ c < k, ∀ d < l, ∀ x < n, V x c = 0 ∨ W x d = 0) :
    Commute (reflectorProd n V s k) (reflectorProd n W t l) := by
  unfold reflectorProd
  refine commute_prod fun y hy => ?_
  obtain ⟨d, hd, rfl⟩ := List.mem_map.1 hy
  refine (commute_prod fun z hz => ?_).symm
  obtain ⟨c, hc, rfl⟩ := List.mem_map.1 hz
  exact (reflector_commute (h c (List.mem_range.1 hc) d (List.mem_range.1 hd))).symm

theorem blkV_out {n b j st c x : Nat} (hc : c < b) (V : Nat → Nat → K) (h : x ≤ (j + st) * b ∨ (j + st) * b + 2 * b ≤ x) : blkV n b V j st x c = 0 := by
  rw [blkV_val hc]
  generalize (j + st) * b = ib at *
  rcases h with h | h
  · rw [if_pos (by omega)]
  · rw [if_neg (by omega), if_neg (by omega), if_neg (by omega)]

theorem blkM_commute {cplx : Bool} {n b : Nat} (hb : 2 ≤ b) (hn : (if cplx then 1 else 2) < n) (V : Nat → Nat → K) {a c : Nat × Nat}
    (ha : IsBlock cplx n b a) (hc : IsBlock cplx n b c) (h : c.1 + 2 ≤ a.1) : Commute (blkM cplx n b V a) (blkM cplx n b V c) := by
  have o1 := block_ok hb hn ha
  have o2 := block_ok hb hn hc
  refine reflectorProd_commute fun p hp q hq x hx => ?_
  have h1 : (c.1 + 2) * b ≤ a.1 * b := Nat.mul_le_mul_right _ h
  rw [Nat.add_mul] at h1
  by_cases hx2 : x ≤ a.1 * b
  · left
    refine blkV_out (by have := o1.hkb; omega) V (.inl ?_)
    rw [Nat.add_sub_cancel' ha.2.1]
    exact hx2
  · right
    refine blkV_out (by have := o2.hkb; omega) V (.inr ?_)
    rw [Nat.add_sub_cancel' hc.2.1]
    omega

/-- The blocks in the order of the distributed algorithm give the documented product. -/
theorem epochs_prod {cplx : Bool} {n b : Nat} (hb : 2 ≤ b) (hn : (if cplx then 1 else 2) < n) (V : Nat → Nat → K) :
    ((epochs cplx n b).reverse.map (blkM cplx n b V)).prod = hhQ cplx n b V := by
  rw [hhQ_blocks hb hn]
  have hl := locL_prod (fun j => t2bSteps (j * b) n b) (blkM cplx n b V) ((t2bSweeps cplx n - 1) / b + 1)
  have hm : ∀ z, z ∈ locL (fun j => t2bSteps (j * b) n b) ((t2bSweeps cplx n - 1) / b + 1) ↔ IsBlock cplx n b z := by
    intro z
    rw [mem_locL]
    unfold IsBlock
    exact ⟨fun h => ⟨by omega, h.2⟩, fun h => ⟨by omega, h.2⟩⟩
  have hn1 : (locL (fun j => t2bSteps (j * b) n b) ((t2bSweeps cplx n - 1) / b + 1)).Nodup :=
    (locL_sorted _ _).imp fun {a c} h e => by subst e; rcases h with h | h <;> omega
  have hn2 : (epochs cplx n b).Nodup := (epochs_sorted cplx n b).imp fun {a c} h e => by subst e; rcases h with h | h <;> omega
  have hp : (epochs cplx n b).Perm (locL (fun j => t2bSteps (j * b) n b) ((t2bSweeps cplx n - 1) / b + 1)) :=
    (List.perm_ext_iff_of_nodup hn2 hn1).2 fun z => by rw [mem_epochs hb hn, hm]
  have := prod_reorder (blkM cplx n b V) (R1 := fun a c => Earlier c a) (R2 := fun a c => Before c a) (epochs cplx n b).reverse
    (locL (fun j => t2bSteps (j * b) n b) ((t2bSweeps cplx n - 1) / b + 1)).reverse
    ((List.reverse_perm _).trans (hp.trans (List.reverse_perm _).symm)) (List.pairwise_reverse.2 (epochs_sorted cplx n b)) (List.pairwise_reverse.2 (locL_sorted _ _)) ?_
  · rw [this, hl]
    refine ascP_congr fun j _ => ?_
    unfold blkP
    refine descP_congr fun st _ => ?_
    unfold blkM
    dsimp only
    rw [Nat.add_sub_cancel_left]
  · intro a ha c hc h1 h2
    rw [List.mem_reverse, mem_epochs hb hn] at ha hc
    have := ha.2.1
    have := hc.2.1
    -- `c` is earlier than `a` in the distributed order, `a` before `c` in the local one
    have hd : c.1 + 2 ≤ a.1 := by
      rcases h1 with h1 | h1 <;> rcases h2 with h2 | h2 <;> omega
    exact blkM_commute hb hn V ha hc hd

end DistT2B
end DLAF
