import Verif.Model.DistPartition
import Verif.Props.IndexVectors
import Verif.Props.SubDistribution
/- The distributed deflation partition: the loops. -/
namespace DLAF
namespace DistPart
open C34

/-- The entries of `l` with type `t` that are on process column `r`. -/
def sel (owner : Nat → Int) (types : List ColType) (r : Int) (t : ColType) (l : List Nat) : List Nat :=
  l.filter fun i => decide (types[i]? = some t ∧ owner i = r)

section
variable {owner : Nat → Int} {types : List ColType}

theorem sel_cons (r : Int) (t : ColType) {jj : Nat} (l : List Nat) {t0 : ColType} (h : types[jj]? = some t0) :
    sel owner types r t (jj :: l) = if t = t0 ∧ r = owner jj then jj :: sel owner types r t l else sel owner types r t l := by
  unfold sel
  rw [List.filter_cons, h]
  by_cases hh : t = t0 ∧ r = owner jj
  · rw [if_pos hh, if_pos (by simp [hh.1, hh.2])]
  · rw [if_neg hh, if_neg (by simp only [decide_eq_true_eq, Option.some.injEq]; rintro ⟨a, b⟩; exact hh ⟨a.symm, b.symm⟩)]

variable {d : Dist1} {n : Nat} (hr : ∀ jj < n, rankOf d jj = some (owner jj)) (ht : types.length = n)
include hr ht

theorem countLoop_spec : ∀ (rest : List Nat) (off : Int → Nat → Nat), (∀ jj ∈ rest, jj < n) →
    ∃ c, countLoop d types rest off = some c ∧ (∀ r, c r 0 = off r 0) ∧
      ∀ r t, t ≠ .Deflated → c r (1 + ev_sort_order t) = off r (1 + ev_sort_order t) + (sel owner types r t rest).length
  | [], off, _ => ⟨off, rfl, fun _ => rfl, fun _ _ _ => by simp [sel]⟩
  | jj :: rest, off, h => by
    have hj := h jj List.mem_cons_self
    obtain ⟨t0, ht0⟩ : ∃ t0, types[jj]? = some t0 := ⟨_, List.getElem?_eq_getElem (by omega)⟩
    unfold countLoop
    rw [ht0, Option.bind_some, hr jj hj, Option.bind_some]
    obtain ⟨c, c1, c2, c3⟩ := countLoop_spec rest (if t0 ≠ .Deflated then bump off (owner jj) (1 + ev_sort_order t0) else off) (fun x hx => h x (List.mem_cons_of_mem _ hx))
    refine ⟨c, c1, fun r => ?_, fun r t htd => ?_⟩
    · rw [c2 r]
      split
      · unfold bump; rw [if_neg (by omega)]
      · rfl
    · rw [c3 r t htd, sel_cons r t rest ht0]
      by_cases hh : t = t0 ∧ r = owner jj
      · rw [if_pos hh, if_pos (by rw [← hh.1]; exact htd)]
        unfold bump
        rw [if_pos ⟨hh.2, by rw [hh.1]⟩, ← hh.2, ← hh.1, List.length_cons]
        omega
      · rw [if_neg hh]
        congr 1
        split
        · unfold bump
          rw [if_neg]
          rintro ⟨a, b⟩
          refine hh ⟨?_, a⟩
          revert b; cases t <;> cases t0 <;> simp [ev_sort_order]
        · rfl

/-- Binning. `pos r l` is the position of local column `l` of process column `r`. -/
theorem binLoop_spec {pos : Int → Nat → Nat} {N : Int → Nat} {G : Int → Prop} (hG : ∀ jj < n, G (owner jj))
    (hpos : ∀ r l, G r → l < N r → d.global_element_from_local_element_on_rank r l = pos r l ∧ pos r l < n)
    (hinj : ∀ r l r' l', G r → G r' → l < N r → l' < N r' → pos r l = pos r' l' → r = r' ∧ l = l') :
    ∀ (rest : List Nat) (off : Int → Nat → Nat) (out : List Nat), out.length = n → (∀ jj ∈ rest, jj < n) →
      (∀ r, G r → ∀ t i, i < (sel owner types r t rest).length → off r (ev_sort_order t) + i < N r) →
      (∀ r, G r → ∀ t t' i i', t ≠ t' → i < (sel owner types r t rest).length → i' < (sel owner types r t' rest).length →
        off r (ev_sort_order t) + i ≠ off r (ev_sort_order t') + i') →
      ∃ out', binLoop d types rest off out = some out' ∧ out'.length = n ∧
        (∀ r, G r → ∀ t i (hi : i < (sel owner types r t rest).length), out'[pos r (off r (ev_sort_order t) + i)]? = some (sel owner types r t rest)[i]) ∧
        (∀ g, (∀ r, G r → ∀ t i, i < (sel owner types r t rest).length → g ≠ pos r (off r (ev_sort_order t) + i)) → out'[g]? = out[g]?)
  | [], off, out, hl, _, _, _ => ⟨out, rfl, hl, fun _ _ _ _ hi => by simp [sel] at hi, fun _ _ => rfl⟩
  | jj :: rest, off, out, hl, h, hb, hd => by
    have hj := h jj List.mem_cons_self
    obtain ⟨t0, ht0⟩ : ∃ t0, types[jj]? = some t0 := ⟨_, List.getElem?_eq_getElem (by omega)⟩
    have hsel : ∀ r t, sel owner types r t (jj :: rest) = if t = t0 ∧ r = owner jj then jj :: sel owner types r t rest else sel owner types r t rest :=
      fun r t => sel_cons r t rest ht0
    have hself : sel owner types (owner jj) t0 (jj :: rest) = jj :: sel owner types (owner jj) t0 rest := by rw [hsel, if_pos ⟨rfl, rfl⟩]
    have hG0 := hG jj hj
    have hl0 : off (owner jj) (ev_sort_order t0) < N (owner jj) := hb (owner jj) hG0 t0 0 (by rw [hself]; simp)
    obtain ⟨p1, p2⟩ := hpos _ _ hG0 hl0
    have ord_inj : ∀ {t t' : ColType}, ev_sort_order t = ev_sort_order t' → t = t' := by
      intro t t'; cases t <;> cases t' <;> simp [ev_sort_order]
    have hbump : ∀ r t, bump off (owner jj) (ev_sort_order t0) r (ev_sort_order t) = if t = t0 ∧ r = owner jj then off r (ev_sort_order t) + 1 else off r (ev_sort_order t) := by
      intro r t
      unfold bump
      by_cases hh : t = t0 ∧ r = owner jj
      · rw [if_pos hh, if_pos ⟨hh.2, by rw [hh.1]⟩, hh.1, hh.2]
      · rw [if_neg hh, if_neg (fun z => hh ⟨ord_inj z.2, z.1⟩)]
    -- an entry of the rest is an entry of the whole, one place further for the current class
    have shift : ∀ r t i, i < (sel owner types r t rest).length → ∃ i' , ∃ hi' : i' < (sel owner types r t (jj :: rest)).length,
        bump off (owner jj) (ev_sort_order t0) r (ev_sort_order t) + i = off r (ev_sort_order t) + i' ∧ (t = t0 ∧ r = owner jj → i' ≠ 0) := by
      intro r t i hi
      rw [hbump, hsel]
      by_cases hh : t = t0 ∧ r = owner jj
      · exact ⟨i + 1, by rw [if_pos hh]; simpa using hi, by rw [if_pos hh]; omega, fun _ => by omega⟩
      · exact ⟨i, by rw [if_neg hh]; exact hi, by rw [if_neg hh], fun z => absurd z hh⟩
    unfold binLoop
    rw [ht0, Option.bind_some, hr jj hj, Option.bind_some, p1]
    have hset : setAtI out (pos (owner jj) (off (owner jj) (ev_sort_order t0)) : Nat) jj = some (out.set (pos (owner jj) (off (owner jj) (ev_sort_order t0))) jj) := by
      unfold setAtI
      rw [if_pos (by omega), Int.toNat_natCast, setAt_some (by omega)]
    rw [hset, Option.bind_some]
    obtain ⟨out', o1, o2, o3, o4⟩ := binLoop_spec hG hpos hinj rest (bump off (owner jj) (ev_sort_order t0)) (out.set (pos (owner jj) (off (owner jj) (ev_sort_order t0))) jj)
      (by simpa using hl) (fun x hx => h x (List.mem_cons_of_mem _ hx))
      (fun r g t i hi => by
        obtain ⟨i', hi', e, _⟩ := shift r t i hi
        rw [e]; exact hb r g t i' hi')
      (fun r g t t' i i' hne hi hi' => by
        obtain ⟨a, ha, e, _⟩ := shift r t i hi
        obtain ⟨a', ha', e', _⟩ := shift r t' i' hi'
        rw [e, e']; exact hd r g t t' a a' hne ha ha')
    have untouched : ∀ r, G r → ∀ t i, i < (sel owner types r t rest).length →
        pos (owner jj) (off (owner jj) (ev_sort_order t0)) ≠ pos r (bump off (owner jj) (ev_sort_order t0) r (ev_sort_order t) + i) := by
      intro r g t i hi he
      obtain ⟨a, ha, e, e0⟩ := shift r t i hi
      rw [e] at he
      obtain ⟨q1, q2⟩ := hinj _ _ _ _ hG0 g hl0 (hb r g t a ha) he
      by_cases htt : t = t0
      · have := e0 ⟨htt, q1.symm⟩
        rw [htt, ← q1] at q2
        omega
      · exact hd (owner jj) hG0 t t0 a 0 htt (by rw [← q1] at ha; exact ha) (by rw [hself]; simp) (by rw [← q1] at q2; omega)
    refine ⟨out', o1, o2, fun r g t i hi => ?_, fun g hg => ?_⟩
    · by_cases hh : t = t0 ∧ r = owner jj
      · obtain ⟨rfl, rfl⟩ := hh
        cases i with
        | zero =>
          rw [Nat.add_zero, o4 _ (fun r g t i hi => untouched r g t i hi), List.getElem?_set_self (by omega)]
          simp [hself]
        | succ i =>
          have hi' : i < (sel owner types (owner jj) t rest).length := by
            rw [hself] at hi; simpa using hi
          have := o3 (owner jj) g t i hi'
          rw [hbump, if_pos ⟨rfl, rfl⟩] at this
          rw [show off (owner jj) (ev_sort_order t) + (i + 1) = off (owner jj) (ev_sort_order t) + 1 + i by omega, this]
          simp [hself]
      · have e : sel owner types r t (jj :: rest) = sel owner types r t rest := by rw [hsel, if_neg hh]
        have := o3 r g t i (by rw [← e]; exact hi)
        rw [hbump, if_neg hh] at this
        rw [this]
        simp [e]
    · rw [o4 g (fun r gr t i hi => by
        obtain ⟨a, ha, e, _⟩ := shift r t i hi
        rw [e]; exact hg r gr t a ha), List.getElem?_set_ne]
      have := hg (owner jj) hG0 t0 0 (by rw [hself]; simp)
      rw [Nat.add_zero] at this
      exact fun z => this z.symm

end

theorem firstDense_spec : ∀ cs : List ColType, firstDense cs ≤ cs.length ∧ (∀ g < firstDense cs, cs[g]? = some .UpperHalf) ∧ cs[firstDense cs]? ≠ some .UpperHalf
  | [] => ⟨Nat.le_refl _, fun _ h => absurd h (by simp [firstDense]), by simp⟩
  | c :: cs => by
    unfold firstDense
    obtain ⟨h1, h2, h3⟩ := firstDense_spec cs
    by_cases hc : ColType.UpperHalf ≠ c
    · rw [if_pos hc]
      exact ⟨by omega, fun _ h => absurd h (by omega), by simpa using Ne.symm hc⟩
    · rw [if_neg hc]
      refine ⟨by simpa using h1, fun g hg => ?_, by simpa using h3⟩
      cases g with
      | zero => simpa using (not_not.1 hc).symm
      | succ g => simpa using h2 g (by omega)

theorem lastLoop_spec (stop : ColType → Bool) (cs : List ColType) : ∀ j ≤ cs.length, ∃ r, lastLoop stop cs j = some r ∧ r ≤ j ∧
    (∀ g, r ≤ g → g < j → ∃ c, cs[g]? = some c ∧ stop c = false) ∧ (0 < r → ∃ c, cs[r - 1]? = some c ∧ stop c = true)
  | 0, _ => ⟨0, rfl, Nat.le_refl _, fun g h1 h2 => absurd h2 (by omega), fun h => absurd h (by omega)⟩
  | j + 1, h => by
    unfold lastLoop
    have hc : cs[j]? = some (cs[j]'(by omega)) := List.getElem?_eq_getElem _
    rw [hc, Option.bind_some]
    by_cases hs : stop (cs[j]'(by omega)) = true
    · rw [if_pos hs]
      exact ⟨j + 1, rfl, Nat.le_refl _, fun g h1 h2 => absurd h2 (by omega), fun _ => ⟨_, by simpa using hc, hs⟩⟩
    · rw [if_neg hs]
      obtain ⟨r, r1, r2, r3, r4⟩ := lastLoop_spec stop cs j (by omega)
      refine ⟨r, r1, by omega, fun g h1 h2 => ?_, r4⟩
      by_cases hg : g = j
      · exact ⟨_, by rw [hg]; exact hc, by simpa using hs⟩
      · exact r3 g h1 (by omega)

theorem i6Loop_spec : ∀ (rest : List (ColType × Nat)) (jnd : Nat), (i6Loop rest jnd).length = rest.length ∧
    ∀ g c a, rest[g]? = some (c, a) → (i6Loop rest jnd)[g]? = some (if c ≠ .Deflated then jnd + (rest.take g).countP (fun x => decide (x.1 ≠ .Deflated)) else a)
  | [], _ => ⟨rfl, fun g c a h => by simp at h⟩
  | (c0, a0) :: rest, jnd => by
    unfold i6Loop
    by_cases hc : c0 ≠ .Deflated
    · rw [if_pos hc]
      obtain ⟨h1, h2⟩ := i6Loop_spec rest (jnd + 1)
      refine ⟨by simp [h1], fun g c a h => ?_⟩
      cases g with
      | zero =>
        simp only [List.getElem?_cons_zero, Option.some.injEq, Prod.mk.injEq] at h ⊢
        rw [← h.1, if_pos hc]
        simp
      | succ g =>
        simp only [List.getElem?_cons_succ] at h ⊢
        rw [h2 g c a h, List.take_succ_cons, List.countP_cons_of_pos (by simpa using hc)]
        congr 1
        split <;> omega
    · rw [if_neg hc]
      obtain ⟨h1, h2⟩ := i6Loop_spec rest jnd
      refine ⟨by simp [h1], fun g c a h => ?_⟩
      cases g with
      | zero =>
        simp only [List.getElem?_cons_zero, Option.some.injEq, Prod.mk.injEq] at h ⊢
        rw [← h.1, if_neg hc, h.2]
      | succ g =>
        simp only [List.getElem?_cons_succ] at h ⊢
        rw [h2 g c a h, List.take_succ_cons, List.countP_cons_of_neg (by simpa using hc)]

/-- `n` different numbers below `n` are a permutation. -/
theorem isPerm_of_nodup {n : Nat} {l : List Nat} (h1 : l.Nodup) (h2 : l.length = n) (h3 : ∀ x ∈ l, x < n) : IsPerm n l := by
  unfold IsPerm
  refine (List.subperm_of_subset h1 (fun x hx => List.mem_range.2 (h3 x hx))).perm_of_length_le ?_
  simp [h2]

end DistPart
end DLAF
