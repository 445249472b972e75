import Verif.Lemmas.DistRedHemm
import Verif.Lemmas.CollectiveList
/- Reductions one after the other over lists of tiles; the roots write the sums into a panel. -/
namespace DLAF
open scoped Classical

/-- One reduction: the root writes the sum. -/
def redOne {S K : Type*} [Field K] (ch : Chan) (root : Bool) (sg : Sig) (srcs : List Coord2) (rd : S → Option (Blk K)) (R : ERef S K) (sz : Nat × Nat) (ix : Int) :
    List (Instr S (Blk K)) :=
  if root then
    [.post ch fun s => (rd s).map fun b => (s, b), .take ch sg srcs fun s vs => (sumBlk vs).bind fun b => R.write sz ix b s]
  else [.post ch fun s => (rd s).map fun b => (s, b), .take ch sg [] fun s _ => some s]

/-- Writes of the roots. -/
noncomputable def redPan {K : Type*} (root : Int → Bool) (ix : Int → Int) (b : Int → Blk K) (l : List Int) (p : EPanel K) : EPanel K :=
  (l.filter fun i => root i).foldl (fun p i => set1 p (ix i) (some (b i))) p

theorem redPan_snoc {K : Type*} (root : Int → Bool) (ix : Int → Int) (b : Int → Blk K) (l : List Int) (p : EPanel K) (i : Int) :
    redPan root ix b (l ++ [i]) p = if root i then set1 (redPan root ix b l p) (ix i) (some (b i)) else redPan root ix b l p := by
  unfold redPan
  rw [List.filter_append, List.foldl_append]
  by_cases h : root i <;> simp [h]

theorem redPan_other {K : Type*} (root : Int → Bool) (ix : Int → Int) (b : Int → Blk K) (p : EPanel K) (k : Int) : ∀ l : List Int,
    redPan root ix b l p k ≠ p k → ∃ i ∈ l, root i = true ∧ k = ix i := by
  intro l
  induction l using List.reverseRecOn with
  | nil => intro h; exact absurd rfl h
  | append_singleton l a ih =>
    intro h
    rw [redPan_snoc] at h
    by_cases ha : root a
    · rw [if_pos ha] at h
      by_cases e : k = ix a
      · exact ⟨a, by simp, ha, e⟩
      · simp only [set1] at h
        rw [if_neg e] at h
        obtain ⟨i, h1, h2⟩ := ih h
        exact ⟨i, by simp [h1], h2⟩
    · rw [if_neg ha] at h
      obtain ⟨i, h1, h2⟩ := ih h
      exact ⟨i, by simp [h1], h2⟩

theorem reduce_list {S K : Type*} [Field K] {G : List Coord2} (hG : G.Nodup) {g : Glob S (Blk K)} (hc : Clean G g) (ch : Coord2 → Chan)
    (ys : Coord2 → List Int) (hnd : ∀ r, (ys r).Nodup) (hch : ∀ r ∈ G, (ch r).has r = true)
    (hmem : ∀ r ∈ G, ∀ s ∈ G, (ch r).has s = true → ch s = ch r ∧ ys s = ys r) {R : ERef S K} (hR : R.OK)
    (root : Coord2 → Int → Bool) (sg : Coord2 → Int → Sig) (srcs : Coord2 → List Coord2) (rd : Coord2 → Int → S → Option (Blk K))
    (sz : Coord2 → Int → Nat × Nat) (ix : Coord2 → Int → Int) (v b : Coord2 → Int → Blk K)
    (hinj : ∀ r ∈ G, ∀ i ∈ ys r, ∀ i' ∈ ys r, root r i = true → root r i' = true → ix r i = ix r i' → i = i')
    (hrd : ∀ r ∈ G, ∀ i ∈ ys r, ∀ p : EPanel K,
      (∀ k, p k ≠ R.get (g.st r) k → ∃ i' ∈ ys r, i' ≠ i ∧ root r i' = true ∧ k = ix r i') → rd r i (R.set (g.st r) p) = some (v r i))
    (hsrc : ∀ r ∈ G, ∀ s ∈ srcs r, s ∈ G ∧ (ch r).has s = true)
    (hsum : ∀ r ∈ G, ∀ i ∈ ys r, root r i = true → sumBlk ((srcs r).map fun s => v s i) = some (b r i))
    (hsz : ∀ r ∈ G, ∀ i ∈ ys r, root r i = true → (b r i).rows = (sz r i).1 ∧ (b r i).cols = (sz r i).2) :
    ∃ g', Runs (fun r => if r ∈ G then (ys r).flatMap fun i => redOne (ch r) (root r i) (sg r i) (srcs r) (rd r i) R (sz r i) (ix r i) else []) g g' ∧ Clean G g' ∧
      ∀ r ∈ G, ∃ p, g'.st r = R.set (g.st r) p ∧ (∀ i ∈ ys r, root r i = true → p (ix r i) = some (b r i)) ∧
        ∀ k, (∀ i ∈ ys r, root r i = true → ix r i ≠ k) → p k = R.get (g.st r) k := by
  obtain ⟨g', A, B, C⟩ := collective_list hG hc true ch ys hch hmem (fun _ _ => []) (fun _ _ => true)
    (fun r i s => (rd r i s).map fun b => (s, b)) sg (fun r i => if root r i then srcs r else [])
    (fun r i s vs => if root r i then (sumBlk vs).bind fun b => R.write (sz r i) (ix r i) b s else some s)
    (fun r l => R.set (g.st r) (redPan (root r) (ix r) (b r) l (R.get (g.st r))))
    (fun r l _ => R.set (g.st r) (redPan (root r) (ix r) (b r) l (R.get (g.st r)))) v
    (fun r _ => hR.set_get _) (fun r _ l i _ => rfl) (fun h => by cases h)
    (by
      rintro _ r hr l i ⟨t, ht⟩ _
      have hi : i ∈ ys r := by rw [ht]; simp
      rw [hrd r hr i hi _ ?_]
      · rfl
      · intro k hk
        obtain ⟨i', h1, h2, h3⟩ := redPan_other _ _ _ _ _ l hk
        refine ⟨i', by rw [ht]; simp [h1], ?_, h2, h3⟩
        rintro rfl
        have := hnd r
        rw [ht, List.nodup_append] at this
        exact this.2.2 _ h1 _ List.mem_cons_self rfl)
    (by
      intro _ r hr i _ s hs
      split at hs
      · exact ⟨(hsrc r hr s hs).1, (hsrc r hr s hs).2, rfl⟩
      · cases hs)
    (by
      rintro _ r hr l i ⟨t, ht⟩
      have hi : i ∈ ys r := by rw [ht]; simp
      rw [redPan_snoc]
      by_cases hrt : root r i
      · rw [if_pos hrt, if_pos hrt, if_pos hrt, hsum r hr i hi hrt, Option.bind_some]
        exact ERef.write_of hR (hsz r hr i hi hrt).1 (hsz r hr i hi hrt).2 _
      · rw [if_neg hrt, if_neg hrt])
  refine ⟨g', A.congr fun r => ?_, B, fun r hr => ⟨_, C r hr, fun i hi hrt => ?_, fun k hk => ?_⟩⟩
  · by_cases hr : r ∈ G
    · rw [if_pos hr, if_pos hr]
      congr 1
      funext i
      unfold redOne collProg
      by_cases hrt : root r i <;> simp [hrt]
    · rw [if_neg hr, if_neg hr]
  · unfold redPan
    refine foldl_set1 (ix r) (b r) _ _ ((hnd r).filter _) ?_ i (List.mem_filter.2 ⟨hi, hrt⟩)
    intro x hx y hy e
    rw [List.mem_filter] at hx hy
    exact hinj r hr x hx.1 y hy.1 hx.2 hy.2 e
  · by_contra hne
    obtain ⟨i, h1, h2, h3⟩ := redPan_other _ _ _ _ _ _ hne
    exact hk i h1 h2 h3.symm

/-- Sums of windows. -/
theorem sumBlk_wins {K : Type*} [RCLike K] {r0 c0 R C : Nat} {m : Int} (hm : 0 < m) (v : Int → Blk K) (M : Int → Elems K)
    (hv : ∀ q, 0 ≤ q → q < m → IsWin (v q) (M q) r0 c0 R C) :
    ∃ b, sumBlk ((irange 0 m).map v) = some b ∧ IsWin b (fun x y => ((irange 0 m).map fun q => M q x y).sum) r0 c0 R C := by
  have e : (irange 0 m).map v = (irange 0 m).map fun q => (⟨R, C, (v q).e⟩ : Blk K) := by
    refine List.map_congr_left fun q hq => ?_
    rw [mem_irange] at hq
    have := hv q hq.1 hq.2
    rw [← this.1, ← this.2.1]
  have hne : irange 0 m ≠ [] := by
    intro h0
    have : (0 : Int) ∈ irange 0 m := mem_irange.2 ⟨le_refl _, hm⟩
    rw [h0] at this
    cases this
  obtain ⟨q0, qs, hq⟩ := List.exists_cons_of_ne_nil hne
  rw [e, hq, sumBlk_exact]
  refine ⟨_, rfl, rfl, rfl, fun x hx y hy => ?_⟩
  dsimp only
  rw [← hq]
  congr 1
  refine List.map_congr_left fun q hq => ?_
  rw [mem_irange] at hq
  exact (hv q hq.1 hq.2).2.2 x hx y hy

end DLAF
