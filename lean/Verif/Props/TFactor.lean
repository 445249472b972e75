import Verif.Lemmas.TFactor
import Verif.Model.Views
import Mathlib.Algebra.BigOperators.Group.Finset.Basic
import Mathlib.Data.List.Perm.Basic
import Mathlib.Algebra.Field.Rat
import Mathlib.Algebra.Star.Rat
/- C44: triangular factor of a block reflector. -/
namespace DLAF
variable {K : Type*} [Field K] [StarRing K]

/-- Rows `p.1, ..., p.1 + p.2 - 1` of the `k` columns of `V`. -/
def panelTile (V : Elems K) (k : Nat) (p : Nat × Nat) : Blk K := getB V p.1 0 p.2 k

/-- Each of the rows `0, ..., m - 1` is in one of the tiles, and only in one. -/
def CoverRows (m : Nat) (parts : List (Nat × Nat)) : Prop :=
  (parts.flatMap fun p => List.range' p.1 p.2).Perm (List.range m)

theorem gram_parts (V : Elems K) (k : Nat) (parts : List (Nat × Nat)) (i j : Nat) :
    gram (parts.map (panelTile V k)) i j =
      ((parts.flatMap fun p => List.range' p.1 p.2).map fun x => star (V x i) * V x j).sum := by
  induction parts with
  | nil => rfl
  | cons p l ih =>
    rw [List.map_cons, gram_cons, ih, List.flatMap_cons, List.map_append, List.sum_append]
    congr 1
    simp only [panelTile, getB, Nat.zero_add]
    rw [List.range'_eq_map_range, List.map_map]
    generalize p.2 = n
    induction n with
    | zero => rfl
    | succ n ih => rw [Finset.sum_range_succ, ih, List.range_succ, List.map_append, List.sum_append]; simp

theorem gram_cover {V : Elems K} {k m : Nat} {parts : List (Nat × Nat)} (h : CoverRows m parts) :
    gram (parts.map (panelTile V k)) = fun i j => ∑ x ∈ Finset.range m, star (V x i) * V x j := by
  funext i j
  rw [gram_parts, (h.map _).sum_eq]
  clear h
  induction m with
  | zero => rfl
  | succ m ih => rw [Finset.sum_range_succ, ← ih, List.range_succ, List.map_append, List.sum_append]; simp

theorem stepGemv_spec {avail : Nat} (ha : 0 < avail) {tiles ws : List (Blk K)} {taus t : Blk K} (hne : tiles ≠ [])
    (hsq : t.rows = t.cols) (htau : taus.rows = t.cols) (hv : ∀ v ∈ tiles, v.cols = t.cols)
    (hws : avail - 1 ≤ ws.length) (hsz : ∀ b ∈ ws, t.cols ≤ b.rows ∧ t.cols ≤ b.cols) :
    ∃ f, stepGemv avail tiles taus t ws = some ⟨t.cols, t.cols, f⟩ ∧
      (∀ c < t.cols, ∀ i < c, f i c = -(taus.e c 0) * gram tiles i c) ∧ ∀ c < t.cols, ∀ i, c < i → f i c = 0 := by
  obtain ⟨s1, s2, _, s4, _⟩ := split_spec (avail := avail) (n := tiles.length) ha (List.length_pos_of_ne_nil hne)
  obtain ⟨f, h1, h2⟩ := gemvBulk_spec tiles taus t.cols _ _ s1 s4 (gemvSlots t fun w => ws.getD w (Blk.zero 0 0))
  refine ⟨f, ?_, h2⟩
  unfold stepGemv
  rw [if_neg hne]
  dsimp only
  rw [if_pos, h1]
  refine ⟨hsq, htau, ?_, by omega, ?_⟩
  · rw [List.all_eq_true]
    intro v hv'
    simp [hv v hv']
  · rw [List.all_eq_true]
    intro b hb
    have := hsz b (List.mem_of_mem_take hb)
    simp [hsq, this]

/-- C44, one process: for every panel of `k` columns of any height, split into tiles in any way, every number of available
workers and whatever the tile `t` and the workspaces contained, the call returns, and `t` is upper triangular with
`I - V T Vᴴ = H_0 H_1 ... H_{k-1}`. -/
theorem C44_t_factor {avail k m : Nat} (ha : 0 < avail) {V : Elems K} {parts : List (Nat × Nat)} (hp : CoverRows m parts)
    (hm : parts ≠ []) {taus t : Blk K} {ws : List (Blk K)} (ht : t.rows = k ∧ t.cols = k) (htau : taus.rows = k)
    (hws : avail - 1 ≤ ws.length) (hsz : ∀ b ∈ ws, k ≤ b.rows ∧ k ≤ b.cols) (hk : 0 < k) :
    ∃ F, computeTFactor avail k (parts.map (panelTile V k)) taus t ws = some ⟨k, k, F⟩ ∧
      (∀ c < k, ∀ i < k, c < i → F i c = 0) ∧
      1 - toM m k V * toM k k F * (toM m k V).conjTranspose = reflectorProd m V (fun j => taus.e j 0) k := by
  obtain ⟨f, h1, h2, h3⟩ := stepGemv_spec (taus := taus) (t := t) (ws := ws) ha (tiles := parts.map (panelTile V k))
    (by simpa using hm) (by rw [ht.1, ht.2]) (by rw [htau, ht.2]) (by
      intro v hv
      obtain ⟨p, _, rfl⟩ := List.mem_map.1 hv
      rw [ht.2]; rfl) hws (by rw [ht.2]; exact hsz)
  rw [ht.2] at h1 h2 h3
  obtain ⟨F, h4, h5⟩ := copyDiagTrmv_spec (taus := taus) (t := ⟨k, k, f⟩) h2 h3
  rw [gram_cover hp] at h5
  refine ⟨F, ?_, h5.low, tfactor_matrix h5⟩
  unfold computeTFactor
  rw [if_neg (by omega), h1, Option.map_some, h4]

/-- C44, threads: whatever the interleaving of the workers, the first step ends, does not block at the barrier, and leaves in
the tile `t` what `stepGemv` returns. -/
theorem C44_every_schedule {avail : Nat} {tiles ws : List (Blk K)} {taus t t' : Blk K} (hne : tiles ≠ [])
    (h : stepGemv avail tiles taus t ws = some t') :
    ∃ s, Bulk.OneResult (gemvCode tiles taus t.cols (splitTFactorWork avail tiles.length).1
        (splitTFactorWork avail tiles.length).2) (splitTFactorWork avail tiles.length).1 0
        (gemvSlots t fun w => ws.getD w (Blk.zero 0 0)) s ∧ s 0 = t' := by
  refine ⟨_, gemv_oneResult _ _ _ _ _ _, ?_⟩
  unfold stepGemv at h
  rw [if_neg hne] at h
  dsimp only at h
  split at h
  · exact Option.some.inj h
  · exact absurd h (by simp)

/-- C44, distribution of the work: at least one worker and no more than available, every worker gets tiles, and the batches in
order are all the tiles. -/
theorem C44_workers {avail n : Nat} (ha : 0 < avail) (hn : 0 < n) :
    0 < (splitTFactorWork avail n).1 ∧ (splitTFactorWork avail n).1 ≤ avail ∧
      n ≤ (splitTFactorWork avail n).1 * (splitTFactorWork avail n).2 ∧
      ((splitTFactorWork avail n).1 - 1) * (splitTFactorWork avail n).2 < n :=
  ⟨(split_spec ha hn).1, (split_spec ha hn).2.1, (split_spec ha hn).2.2.2.1, (split_spec ha hn).2.2.2.2⟩

omit [Field K] [StarRing K] in
theorem mapM_some {X Y : Type*} {f : X → Option Y} {g : X → Y} (l : List X) (h : ∀ x ∈ l, f x = some (g x)) :
    l.mapM f = some (l.map g) := by
  induction l with
  | nil => rfl
  | cons a l ih =>
    rw [List.mapM_cons, h a List.mem_cons_self, ih fun x hx => h x (List.mem_cons_of_mem _ hx)]
    rfl

/-- C44, several processes: the rows of the panel are distributed in any way over the ranks of the column (some may have
none), each rank with its own number of workers.  Every rank gets the same T factor, that of the whole panel. -/
theorem C44_t_factor_distributed {k m : Nat} {V : Elems K} {ranks : List (Nat × List (Nat × Nat) × List (Blk K))}
    (hr : ranks ≠ []) (hp : CoverRows m (ranks.flatMap fun r => r.2.1)) (ha : ∀ r ∈ ranks, 0 < r.1)
    (hws : ∀ r ∈ ranks, r.1 - 1 ≤ r.2.2.length ∧ ∀ b ∈ r.2.2, k ≤ b.rows ∧ k ≤ b.cols)
    {taus t : Blk K} (ht : t.rows = k ∧ t.cols = k) (htau : taus.rows = k) (hk : 0 < k) :
    ∃ F, computeTFactorDist k (ranks.map fun r => (r.1, r.2.1.map (panelTile V k), r.2.2)) taus t = some ⟨k, k, F⟩ ∧
      (∀ c < k, ∀ i < k, c < i → F i c = 0) ∧
      1 - toM m k V * toM k k F * (toM m k V).conjTranspose = reflectorProd m V (fun j => taus.e j 0) k := by
  have hstep : ∀ r : Nat × List (Nat × Nat) × List (Blk K), ∃ f : Nat → Nat → K, r ∈ ranks →
      stepGemv r.1 (r.2.1.map (panelTile V k)) taus (Blk.zero t.rows t.cols) r.2.2 = some ⟨k, k, f⟩ ∧
      (∀ c < k, ∀ i < c, f i c = -(taus.e c 0) * gram (r.2.1.map (panelTile V k)) i c) ∧
      ∀ c < k, ∀ i, c < i → f i c = 0 := by
    intro r
    by_cases hmem : r ∈ ranks
    · by_cases he : r.2.1 = []
      · refine ⟨fun _ _ => 0, fun _ => ⟨?_, ?_, fun _ _ _ _ => rfl⟩⟩
        · rw [he, ht.1, ht.2]; rfl
        · intro c _ i _; rw [he]; simp [gram]
      · obtain ⟨f, h1, h2, h3⟩ := stepGemv_spec (taus := taus) (t := Blk.zero t.rows t.cols) (ws := r.2.2) (ha r hmem)
          (tiles := r.2.1.map (panelTile V k)) (by simpa using he) (by simp [Blk.zero, ht.1, ht.2])
          (by simp [Blk.zero, ht.2, htau]) (by
            intro v hv
            obtain ⟨p, _, rfl⟩ := List.mem_map.1 hv
            exact ht.2.symm) (hws r hmem).1 (by simp only [Blk.zero, ht.2]; exact (hws r hmem).2)
        simp only [Blk.zero, ht.1, ht.2] at h1 h2 h3
        exact ⟨f, fun _ => ⟨by rw [ht.1, ht.2]; exact h1, h2, h3⟩⟩
    · exact ⟨fun _ _ => 0, fun h => absurd h hmem⟩
  choose f hf using hstep
  have hm : (ranks.map fun r => (r.1, r.2.1.map (panelTile V k), r.2.2)).mapM
      (fun r => stepGemv r.1 r.2.1 taus (Blk.zero t.rows t.cols) r.2.2) = some (ranks.map fun r => ⟨k, k, f r⟩) := by
    rw [List.mapM_map]
    exact mapM_some _ fun r hr => (hf r hr).1
  have hsum : ∀ c < k, ∀ i < c, (ranks.map fun r => f r i c).sum =
      -(taus.e c 0) * gram ((ranks.flatMap fun r => r.2.1).map (panelTile V k)) i c := by
    intro c hc i hi
    have : ∀ l : List (Nat × List (Nat × Nat) × List (Blk K)), (∀ r ∈ l, r ∈ ranks) →
        (l.map fun r => f r i c).sum = -(taus.e c 0) * gram ((l.flatMap fun r => r.2.1).map (panelTile V k)) i c := by
      intro l
      induction l with
      | nil => intro _; simp [gram]
      | cons a l ih =>
        intro h
        rw [List.map_cons, List.sum_cons, ih fun r hr => h r (List.mem_cons_of_mem _ hr), List.flatMap_cons,
          List.map_append, gram_append, (hf a (h a List.mem_cons_self)).2.1 c hc i hi]
        ring
    exact this ranks fun _ h => h
  have hlow : ∀ c < k, ∀ i, c < i → (ranks.map fun r => f r i c).sum = 0 := by
    intro c hc i hi
    refine List.sum_eq_zero fun x hx => ?_
    obtain ⟨r, hr, rfl⟩ := List.mem_map.1 hx
    exact (hf r hr).2.2 c hc i hi
  have hmid : ∃ g : Nat → Nat → K, (if (ranks.map fun r => (r.1, r.2.1.map (panelTile V k), r.2.2)).length = 1 then
      (ranks.map fun r => (⟨k, k, f r⟩ : Blk K)).headD t
      else ⟨t.rows, t.cols, fun i c => ((ranks.map fun r => (⟨k, k, f r⟩ : Blk K)).map fun b => b.e i c).sum⟩) = ⟨k, k, g⟩ ∧
      ∀ i c, g i c = (ranks.map fun r => f r i c).sum := by
    rw [List.length_map]
    by_cases h1 : ranks.length = 1
    · obtain ⟨r, rfl⟩ := List.length_eq_one_iff.1 h1
      exact ⟨f r, by simp, by simp⟩
    · rw [if_neg h1, ht.1, ht.2]
      exact ⟨_, rfl, fun i c => by rw [List.map_map]; rfl⟩
  obtain ⟨g, hg, hg2⟩ := hmid
  obtain ⟨F, h4, h5⟩ := copyDiagTrmv_spec (taus := taus) (t := ⟨k, k, g⟩)
    (G := gram ((ranks.flatMap fun r => r.2.1).map (panelTile V k)))
    (fun c hc i hi => (hg2 i c).trans (hsum c hc i hi)) (fun c hc i hi => (hg2 i c).trans (hlow c hc i hi))
  rw [gram_cover hp] at h5
  refine ⟨F, ?_, h5.low, tfactor_matrix h5⟩
  unfold computeTFactorDist
  rw [if_neg (by omega), hm, Option.map_some, hg, h4]

/- Non-vacuity: two reflectors of order 3 over `ℚ` in tiles of heights 2 and 1, three workers available; two ranks of which
the second has no row. -/
section example_
private def exV : Elems ℚ := fun x j => if j = 0 then 1 + x else (x : ℚ) * x + 2
private def exTau : Blk ℚ := ⟨2, 1, fun i _ => i + 3⟩
private def exT : Blk ℚ := ⟨2, 2, fun _ _ => 17⟩

example : ∃ F, computeTFactor 3 2 ([(0, 2), (2, 1)].map (panelTile exV 2)) exTau exT [exT, exT] = some ⟨2, 2, F⟩ ∧
    1 - toM 3 2 exV * toM 2 2 F * (toM 3 2 exV).conjTranspose = reflectorProd 3 exV (fun j => exTau.e j 0) 2 := by
  obtain ⟨F, h1, _, h3⟩ := C44_t_factor (avail := 3) (k := 2) (m := 3) (by omega) (V := exV) (parts := [(0, 2), (2, 1)])
    (List.Perm.refl _) (by simp) (taus := exTau) (t := exT) (ws := [exT, exT]) ⟨rfl, rfl⟩ rfl (by simp)
    (by simp [exT]) (by omega)
  exact ⟨F, h1, h3⟩

example : ∃ F, computeTFactorDist 2 [(3, [(0, 2), (2, 1)].map (panelTile exV 2), [exT, exT]), (1, [], [])] exTau exT =
      some ⟨2, 2, F⟩ ∧
    1 - toM 3 2 exV * toM 2 2 F * (toM 3 2 exV).conjTranspose = reflectorProd 3 exV (fun j => exTau.e j 0) 2 := by
  obtain ⟨F, h1, _, h3⟩ := C44_t_factor_distributed (k := 2) (m := 3) (V := exV)
    (ranks := [(3, [(0, 2), (2, 1)], [exT, exT]), (1, [], [])]) (by simp) (List.Perm.refl _) (by simp)
    (by simp [exT]) (taus := exTau) (t := exT) ⟨rfl, rfl⟩ rfl (by omega)
  exact ⟨F, h1, h3⟩

example : ∃ t', stepGemv 3 ([(0, 2), (2, 1)].map (panelTile exV 2)) exTau exT [exT, exT] = some t' ∧
    (splitTFactorWork 3 2).1 = 2 := by
  obtain ⟨f, h1, _⟩ := stepGemv_spec (avail := 3) (by omega) (tiles := [(0, 2), (2, 1)].map (panelTile exV 2)) (ws := [exT, exT])
    (taus := exTau) (t := exT) (by simp) rfl rfl (by simp [panelTile, getB, exT]) (by simp) (by simp [exT])
  exact ⟨_, h1, by decide⟩
end example_

end DLAF
