import Verif.Model.DistElem
import Verif.Lemmas.DistHermitian
import Verif.Lemmas.Window
import Verif.Lemmas.Views
import Mathlib.Algebra.BigOperators.Group.Finset.Basic
/- Light panels: collectives on their tiles, views, and sums over the processes. -/
namespace DLAF

section runs
variable {S V : Type*}

/-- Programs that run over a list, position by position. -/
theorem Runs.lists {p : Coord2 → Int → List (Instr S V)} (xs : Coord2 → List Int) (I : Nat → Glob S V → Prop) {N : Nat}
    (hN : ∀ r, (xs r).length ≤ N) {g : Glob S V} (h0 : I 0 g)
    (hstep : ∀ m, m < N → ∀ g, I m g → ∃ g', Runs (fun r => ((xs r)[m]?).elim [] (p r)) g g' ∧ I (m + 1) g') :
    ∃ g', Runs (fun r => (xs r).flatMap (p r)) g g' ∧ I N g' := by
  suffices H : ∀ m, m ≤ N → ∃ g', Runs (fun r => ((xs r).take m).flatMap (p r)) g g' ∧ I m g' by
    obtain ⟨g', h1, h2⟩ := H N (Nat.le_refl _)
    exact ⟨g', h1.congr fun r => by rw [List.take_of_length_le (hN r)], h2⟩
  intro m
  induction m with
  | zero => intro _; exact ⟨g, .nil (fun r => by simp) g, h0⟩
  | succ m ih =>
    intro hm
    obtain ⟨g', h1, h2⟩ := ih (by omega)
    obtain ⟨g'', h3, h4⟩ := hstep m (by omega) g' h2
    refine ⟨g'', (h1.append h3).congr ?_, h4⟩
    intro r
    rw [List.take_add_one, List.flatMap_append]
    congr 1
    cases (xs r)[m]? <;> simp

/-- Local work over a list, in any invariant of what is done. -/
theorem runLocs_each {X : Type*} {f : X → S → Option S} {xs : List X} (hnd : xs.Nodup) (I : (X → Prop) → S → Prop) {s : S}
    (h0 : I (fun _ => False) s)
    (hs : ∀ D x s, x ∈ xs → ¬ D x → (∀ y, D y → y ∈ xs) → I D s → ∃ s', f x s = some s' ∧ I (fun y => D y ∨ y = x) s') :
    ∃ s', runLocs (xs.map f) s = some s' ∧ I (fun y => y ∈ xs) s' := by
  suffices H : ∀ post pre s, pre ++ post = xs → I (fun y => y ∈ pre) s →
      ∃ s', runLocs (post.map f) s = some s' ∧ I (fun y => y ∈ xs) s' from
    H xs [] s rfl (by simpa using h0)
  intro post
  induction post with
  | nil =>
    intro pre s e h
    rw [List.append_nil] at e
    subst e
    exact ⟨s, rfl, h⟩
  | cons x post ih =>
    intro pre s e h
    have hx : x ∉ pre := by
      rw [← e] at hnd
      have := List.nodup_append.1 hnd
      exact fun hc => this.2.2 x hc x List.mem_cons_self rfl
    obtain ⟨s1, h1, h2⟩ := hs _ x s (by rw [← e]; simp) hx (fun y hy => by rw [← e]; simp [hy]) h
    obtain ⟨s2, h3, h4⟩ := ih (pre ++ [x]) s1 (by simp [← e]) (by simpa [List.mem_append] using h2)
    refine ⟨s2, ?_, h4⟩
    unfold runLocs at h3 ⊢
    rw [List.map_cons, List.foldlM_cons, h1]
    exact h3
end runs

/-- Reading back what was set. -/
structure ERef.OK {S K : Type*} (R : ERef S K) : Prop where
  get_set : ∀ s p, R.get (R.set s p) = p
  set_get : ∀ s, R.set s (R.get s) = s
  set_set : ∀ s p q, R.set (R.set s p) q = R.set s q

section
variable {S K : Type*} {P : Params2} {axis : Coord} {R : ERef S K}

/-- Broadcast of the tiles `xs` of a panel from the processes at `root`. -/
theorem bcastTiles_runs (hR : R.OK) {g : Glob S (Blk K)} (hc : Clean P.ranks g) {root : Int} (hroot : 0 ≤ root ∧ root < (P.get axis).grid)
    (sz : Coord2 → Int → Nat × Nat) (xs : Int → List Int) (W : Int → Int → Blk K)
    (hW : ∀ r ∈ P.ranks, r.get axis = root → ∀ i ∈ xs (r.get axis.orth), R.get (g.st r) i = some (W (r.get axis.orth) i))
    (hsz : ∀ r ∈ P.ranks, ∀ i ∈ xs (r.get axis.orth), (W (r.get axis.orth) i).rows = (sz r i).1 ∧ (W (r.get axis.orth) i).cols = (sz r i).2) :
    ∃ g', Runs (fun r => if r ∈ P.ranks then bcastTiles axis (P.on r) root R (sz r) (xs (r.get axis.orth)) else []) g g' ∧ Clean P.ranks g' ∧
      ∀ r ∈ P.ranks, g'.st r = R.set (g.st r) (fun i => if i ∈ xs (r.get axis.orth) then some (W (r.get axis.orth) i) else R.get (g.st r) i) := by
  have hme : ∀ r : Coord2, (⟨(P.on r).row.rank, (P.on r).col.rank⟩ : Coord2) = r := fun r => rfl
  have hgr : ∀ r, ((P.on r).get axis).grid = (P.get axis).grid := by intro r; cases axis <;> rfl
  have hrk : ∀ r, ((P.on r).get axis).rank = r.get axis := by intro r; cases axis <;> rfl
  by_cases h1 : (P.get axis).grid ≤ 1
  · refine ⟨g, .nil (fun r => ?_) g, hc, fun r hr => ?_⟩
    · by_cases hr : r ∈ P.ranks
      · rw [if_pos hr]; unfold bcastTiles; rw [hgr, if_pos h1]
      · rw [if_neg hr]
    · have := Params2.mem_ranks.1 hr axis
      have e := hW r hr (by omega)
      have : (fun i => if i ∈ xs (r.get axis.orth) then some (W (r.get axis.orth) i) else R.get (g.st r) i) = R.get (g.st r) := by
        funext i
        split
        · rename_i h; exact (e i h).symm
        · rfl
      rw [this, hR.set_get]
  · let ys : Coord2 → List Int := fun r => if r ∈ P.ranks then xs (r.get axis.orth) else []
    have hys : ∀ r ∈ P.ranks, ys r = xs (r.get axis.orth) := fun r h => if_pos h
    obtain ⟨N, hN⟩ : ∃ N, ∀ r, (ys r).length ≤ N := by
      have : ∀ L : List Coord2, ∃ N, ∀ r ∈ L, (ys r).length ≤ N := by
        intro L
        induction L with
        | nil => exact ⟨0, by simp⟩
        | cons a L ih =>
          obtain ⟨N, hN⟩ := ih
          refine ⟨max N (ys a).length, fun r hr => ?_⟩
          rcases List.mem_cons.1 hr with rfl | hr
          · omega
          · have := hN r hr; omega
      obtain ⟨N, hN⟩ := this P.ranks
      refine ⟨N, fun r => ?_⟩
      by_cases hr : r ∈ P.ranks
      · exact hN r hr
      · simp [ys, hr]
    let cur : Nat → Coord2 → S := fun m r => R.set (g.st r) (fun i => if i ∈ (ys r).take m then some (W (r.get axis.orth) i) else R.get (g.st r) i)
    obtain ⟨g', A, B⟩ := Runs.lists (p := fun r i => if r.get axis = root then bcastSend (panelChan axis r) root fun s => (R.read i s).map fun b => (s, b)
        else bcastRecv (panelChan axis r) root fun s b => R.write (sz r i) i b s) ys
      (fun m g' => Clean P.ranks g' ∧ ∀ r ∈ P.ranks, g'.st r = cur m r) hN (g := g) ⟨hc, fun r hr => by
          simp only [cur, List.take_zero, List.not_mem_nil, if_false]
          exact (hR.set_get _).symm⟩ (by
        intro m _ g1 ⟨hc1, hs1⟩
        refine Exists.elim (bcast_phase (G := P.ranks) (g := g1) P.ranks_nodup hc1
          (p := fun r => ((ys r)[m]?).elim [] fun i => if r.get axis = root then bcastSend (panelChan axis r) root fun s => (R.read i s).map fun b => (s, b)
            else bcastRecv (panelChan axis r) root fun s b => R.write (sz r i) i b s)
          (fun r => if m < (ys r).length then some (panelChan axis r) else none) root
          (fun r s => ((ys r)[m]?).bind fun i => (R.read i s).map fun b => (s, b)) (fun r s b => ((ys r)[m]?).bind fun i => R.write (sz r i) i b s)
          (fun r => cur (m + 1) r)
          (fun c => match c with
            | .row q => W (if axis = .Col then q else 0) ((xs (if axis = .Col then q else 0)).getD m 0)
            | .col q => W (if axis = .Row then q else 0) ((xs (if axis = .Row then q else 0)).getD m 0)
            | .pair _ _ _ => W 0 0
            | .duo _ _ _ _ _ => W 0 0
            | .full _ => W 0 0) ?_ ?_ ?_ ?_ ?_ ?_) ?_
        · intro r hr
          by_cases hm : m < (ys r).length
          · simp only [hm, if_true, List.getElem?_eq_getElem hm, Option.elim_some]
            by_cases hq : r.get axis = root
            · rw [if_pos hq, if_pos]
              · rfl
              · exact coord_ext axis (by rw [(chan_rankOf axis r root).1, hq]) (chan_rankOf axis r root).2.symm
            · rw [if_neg hq, if_neg]
              · rfl
              · intro hc'
                rw [hc'] at hq
                exact hq ((chan_rankOf axis r root).1)
          · simp only [hm, if_false, List.getElem?_eq_none (Nat.le_of_not_lt hm), Option.elim_none]
        · intro r hr
          simp [ys, hr]
        · intro r hr c hcc
          split at hcc
          · rename_i hm
            rw [Option.some.injEq] at hcc
            subst hcc
            refine ⟨(chan_has axis r r).2 rfl, fun s hs hh => ?_⟩
            rw [chan_has] at hh
            rw [hys r hr] at hm
            rw [hys s hs, hh, if_pos hm, chan_eq axis hh]
          · exact absurd hcc (by simp)
        · intro r hr c hcc
          split at hcc
          · rw [Option.some.injEq] at hcc
            subst hcc
            rw [Params2.mem_ranks]
            intro c
            have := Params2.mem_ranks.1 hr c
            have e := chan_rankOf axis r root
            by_cases hca : c = axis
            · subst hca; rw [e.1]; exact hroot
            · have : c = axis.orth := by cases c <;> cases axis <;> simp_all [Coord.orth]
              subst this; rw [e.2]; exact Params2.mem_ranks.1 hr _
          · exact absurd hcc (by simp)
        · intro r hr c hcc hro
          split at hcc
          · rename_i hm
            rw [Option.some.injEq] at hcc
            subst hcc
            have hq : r.get axis = root := by rw [hro]; exact (chan_rankOf axis r root).1
            have hv : (match panelChan axis r with
              | .row q => W (if axis = .Col then q else 0) ((xs (if axis = .Col then q else 0)).getD m 0)
              | .col q => W (if axis = .Row then q else 0) ((xs (if axis = .Row then q else 0)).getD m 0)
              | .pair _ _ _ => W 0 0
              | .duo _ _ _ _ _ => W 0 0
              | .full _ => W 0 0) =
                W (r.get axis.orth) ((ys r)[m]) := by
              have e1 : (ys r)[m] = (xs (r.get axis.orth)).getD m 0 := by
                simp only [hys r hr] at hm ⊢
                simp [List.getD, hm]
              rw [e1]
              cases axis <;> rfl
            have hmem : (ys r)[m] ∈ xs (r.get axis.orth) := by rw [← hys r hr]; exact List.getElem_mem _
            rw [hv, List.getElem?_eq_getElem hm, Option.bind_some, hs1 r hr]
            unfold ERef.read
            have e2 : R.get (cur m r) (ys r)[m] = some (W (r.get axis.orth) (ys r)[m]) := by
              simp only [cur]
              rw [hR.get_set]
              split
              · rfl
              · exact hW r hr hq _ hmem
            have e3 : cur (m + 1) r = cur m r := by
              simp only [cur]
              congr 1
              funext i
              by_cases h5 : i ∈ (ys r).take m
              · rw [if_pos h5, if_pos (by rw [List.take_add_one]; simp [h5])]
              · rw [if_neg h5]
                split
                · rename_i h6
                  have : i ∈ xs (r.get axis.orth) := by rw [← hys r hr]; exact List.mem_of_mem_take h6
                  exact (hW r hr hq i this).symm
                · rfl
            rw [e2, e3]
            rfl
          · exact absurd hcc (by simp)
        · intro r hr c hcc hro
          split at hcc
          · rename_i hm
            rw [Option.some.injEq] at hcc
            subst hcc
            have hv : (match panelChan axis r with
              | .row q => W (if axis = .Col then q else 0) ((xs (if axis = .Col then q else 0)).getD m 0)
              | .col q => W (if axis = .Row then q else 0) ((xs (if axis = .Row then q else 0)).getD m 0)
              | .pair _ _ _ => W 0 0
              | .duo _ _ _ _ _ => W 0 0
              | .full _ => W 0 0) =
                W (r.get axis.orth) ((ys r)[m]) := by
              have e1 : (ys r)[m] = (xs (r.get axis.orth)).getD m 0 := by
                simp only [hys r hr] at hm ⊢
                simp [List.getD, hm]
              rw [e1]
              cases axis <;> rfl
            have hmem : (ys r)[m] ∈ xs (r.get axis.orth) := by rw [← hys r hr]; exact List.getElem_mem _
            rw [hv, List.getElem?_eq_getElem hm, Option.bind_some, hs1 r hr]
            unfold ERef.write
            rw [if_pos (hsz r hr _ hmem), Option.some.injEq]
            simp only [cur]
            rw [hR.set_set, hR.get_set]
            congr 1
            funext i
            unfold set1
            have ht : (ys r).take (m + 1) = (ys r).take m ++ [(ys r)[m]] := by
              rw [List.take_add_one, List.getElem?_eq_getElem hm]; rfl
            rw [ht]
            by_cases h5 : i = (ys r)[m]
            · subst h5
              rw [if_pos rfl, if_pos (List.mem_append_right _ (List.mem_singleton.2 rfl))]
            · rw [if_neg h5]
              beta_reduce
              by_cases h6 : i ∈ (ys r).take m
              · rw [if_pos h6, if_pos (List.mem_append_left _ h6)]
              · rw [if_neg h6, if_neg]
                intro hcc
                rcases List.mem_append.1 hcc with h | h
                · exact h6 h
                · exact h5 (List.mem_singleton.1 h)
          · exact absurd hcc (by simp)
        · rintro g2 ⟨h2, h3, h4⟩
          refine ⟨g2, h2, h3, fun r hr => ?_⟩
          rw [h4 r]
          by_cases hm : m < (ys r).length
          · rw [if_pos ⟨hr, by simp [hm]⟩]
          · rw [if_neg (by simp [hm]), hs1 r hr]
            simp only [cur]
            rw [List.take_of_length_le (by omega), List.take_of_length_le (by omega)])
    refine ⟨g', A.congr fun r => ?_, B.1, fun r hr => ?_⟩
    · by_cases hr : r ∈ P.ranks
      · rw [if_pos hr, hys r hr]
        unfold bcastTiles
        dsimp only
        rw [hgr, if_neg h1, hme]
        congr 1
        funext i
        rw [hrk]
      · rw [if_neg hr]
        simp [ys, hr]
    · rw [B.2 r hr]
      simp only [cur]
      rw [List.take_of_length_le (hN r), hys r hr]

/-- All-reduce of the tiles `xs` of a panel. -/
theorem allReduceTiles_runs [Field K] (hR : R.OK) {g : Glob S (Blk K)} (hc : Clean P.ranks g)
    (sz : Coord2 → Int → Nat × Nat) (xs : Int → List Int) (hnd : ∀ q, (xs q).Nodup) (U : Coord2 → Int → Blk K) (Z : Int → Int → Blk K)
    (hU : ∀ r ∈ P.ranks, ∀ i ∈ xs (r.get axis.orth), R.get (g.st r) i = some (U r i))
    (hZ : ∀ r ∈ P.ranks, ∀ i ∈ xs (r.get axis.orth),
      sumBlk ((irange 0 (P.get axis).grid).map fun t => U ((panelChan axis r).rankOf t) i) = some (Z (r.get axis.orth) i))
    (hsz : ∀ r ∈ P.ranks, ∀ i ∈ xs (r.get axis.orth), (Z (r.get axis.orth) i).rows = (sz r i).1 ∧ (Z (r.get axis.orth) i).cols = (sz r i).2) :
    ∃ g', Runs (fun r => if r ∈ P.ranks then allReduceTiles axis (P.on r) R (sz r) (xs (r.get axis.orth)) else []) g g' ∧ Clean P.ranks g' ∧
      ∀ r ∈ P.ranks, g'.st r = R.set (g.st r) (fun i => if i ∈ xs (r.get axis.orth) then some (Z (r.get axis.orth) i) else R.get (g.st r) i) := by
  have hme : ∀ r : Coord2, (⟨(P.on r).row.rank, (P.on r).col.rank⟩ : Coord2) = r := fun r => rfl
  have hgr : ∀ r, ((P.on r).get axis).grid = (P.get axis).grid := by intro r; cases axis <;> rfl
  let ys : Coord2 → List Int := fun r => if r ∈ P.ranks then xs (r.get axis.orth) else []
  have hys : ∀ r ∈ P.ranks, ys r = xs (r.get axis.orth) := fun r h => if_pos h
  obtain ⟨N, hN⟩ : ∃ N, ∀ r, (ys r).length ≤ N := by
    have : ∀ L : List Coord2, ∃ N, ∀ r ∈ L, (ys r).length ≤ N := by
      intro L
      induction L with
      | nil => exact ⟨0, by simp⟩
      | cons a L ih =>
        obtain ⟨N, hN⟩ := ih
        refine ⟨max N (ys a).length, fun r hr => ?_⟩
        rcases List.mem_cons.1 hr with rfl | hr
        · omega
        · have := hN r hr; omega
    obtain ⟨N, hN⟩ := this P.ranks
    refine ⟨N, fun r => ?_⟩
    by_cases hr : r ∈ P.ranks
    · exact hN r hr
    · simp [ys, hr]
  let cur : Nat → Coord2 → S := fun m r => R.set (g.st r) (fun i => if i ∈ (ys r).take m then some (Z (r.get axis.orth) i) else R.get (g.st r) i)
  have hcong : ∀ r (m : Nat) (hm : m < (ys r).length), r ∈ P.ranks → ∀ t ∈ irange 0 (P.get axis).grid,
      (panelChan axis r).rankOf t ∈ P.ranks ∧ ((panelChan axis r).rankOf t).get axis.orth = r.get axis.orth := by
    intro r m hm hr t ht
    have e := chan_rankOf axis r t
    refine ⟨Params2.mem_ranks.2 fun c => ?_, e.2⟩
    by_cases hca : c = axis
    · subst hca; rw [e.1]; rw [mem_irange] at ht; omega
    · have : c = axis.orth := by cases c <;> cases axis <;> simp_all [Coord.orth]
      subst this; rw [e.2]; exact Params2.mem_ranks.1 hr _
  obtain ⟨g', A, B⟩ := Runs.lists (p := fun r i => [.post (panelChan axis r) fun s => (R.read i s).map fun b => (s, b),
     .take (panelChan axis r) .allReduce ((irange 0 (P.get axis).grid).map (panelChan axis r).rankOf) fun s vs =>
        (sumBlk vs).bind fun b => R.write (sz r i) i b s]) ys
    (fun m g' => Clean P.ranks g' ∧ ∀ r ∈ P.ranks, g'.st r = cur m r) hN (g := g) ⟨hc, fun r hr => by
        simp only [cur, List.take_zero, List.not_mem_nil, if_false]
        exact (hR.set_get _).symm⟩ (by
      intro m _ g1 ⟨hc1, hs1⟩
      have hget : ∀ r ∈ P.ranks, ∀ hm : m < (ys r).length, R.get (g1.st r) (ys r)[m] = some (U r (ys r)[m]) := by
        intro r hr hm
        rw [hs1 r hr]
        simp only [cur]
        rw [hR.get_set, if_neg]
        · exact hU r hr _ (by rw [← hys r hr]; exact List.getElem_mem _)
        · intro hin
          have hn : (ys r).Nodup := by rw [hys r hr]; exact hnd _
          obtain ⟨j, hj, he⟩ := List.mem_take_iff_getElem.1 hin
          have := (List.Nodup.getElem_inj_iff hn).1 he
          omega
      refine Exists.elim (collective_phase (G := P.ranks) (g := g1) P.ranks_nodup hc1
        (p := fun r => ((ys r)[m]?).elim [] fun i => [.post (panelChan axis r) fun s => (R.read i s).map fun b => (s, b),
          .take (panelChan axis r) .allReduce ((irange 0 (P.get axis).grid).map (panelChan axis r).rankOf) fun s vs =>
            (sumBlk vs).bind fun b => R.write (sz r i) i b s])
        (fun r => if m < (ys r).length then some (panelChan axis r) else none) (fun _ => true)
        (fun r s => ((ys r)[m]?).bind fun i => (R.read i s).map fun b => (s, b)) (fun _ => .allReduce)
        (fun r => (irange 0 (P.get axis).grid).map (panelChan axis r).rankOf)
        (fun r s vs => ((ys r)[m]?).bind fun i => (sumBlk vs).bind fun b => R.write (sz r i) i b s)
        (fun r => g1.st r) (fun r => cur (m + 1) r) (fun r => U r ((ys r).getD m 0)) ?_ ?_ ?_ ?_ ?_ ?_) ?_
      · intro r hr
        by_cases hm : m < (ys r).length
        · simp only [hm, if_true, List.getElem?_eq_getElem hm, Option.elim_some]
          rfl
        · simp only [hm, if_false, List.getElem?_eq_none (Nat.le_of_not_lt hm), Option.elim_none]
      · intro r hr
        simp [ys, hr]
      · intro r hr c hcc
        split at hcc
        · rename_i hm
          rw [Option.some.injEq] at hcc
          subst hcc
          refine ⟨(chan_has axis r r).2 rfl, fun s hs hh => ?_⟩
          rw [chan_has] at hh
          rw [hys r hr] at hm
          rw [hys s hs, hh, if_pos hm, chan_eq axis hh]
        · exact absurd hcc (by simp)
      · intro r hr c hcc
        split at hcc
        · rename_i hm
          rw [if_pos rfl, List.getElem?_eq_getElem hm, Option.bind_some]
          unfold ERef.read
          rw [hget r hr hm]
          have : (ys r).getD m 0 = (ys r)[m] := by simp [List.getD, hm]
          rw [this]
          rfl
        · exact absurd hcc (by simp)
      · intro r hr c hcc s hs
        split at hcc
        · rename_i hm
          rw [Option.some.injEq] at hcc
          subst hcc
          obtain ⟨t, ht, rfl⟩ := List.mem_map.1 hs
          have := hcong r m hm hr t ht
          exact ⟨this.1, (chan_has axis r _).2 this.2, rfl⟩
        · exact absurd hcc (by simp)
      · intro r hr c hcc
        split at hcc
        · rename_i hm
          have hmem : (ys r)[m] ∈ xs (r.get axis.orth) := by rw [← hys r hr]; exact List.getElem_mem _
          rw [List.getElem?_eq_getElem hm, Option.bind_some, List.map_map]
          have e1 : (irange 0 (P.get axis).grid).map ((fun r => U r ((ys r).getD m 0)) ∘ (panelChan axis r).rankOf) =
              (irange 0 (P.get axis).grid).map fun t => U ((panelChan axis r).rankOf t) (ys r)[m] := by
            refine List.map_congr_left fun t ht => ?_
            have := hcong r m hm hr t ht
            simp only [Function.comp]
            rw [hys _ this.1, this.2]
            simp only [hys r hr] at hm ⊢
            simp [List.getD, hm]
          rw [e1, hZ r hr _ hmem, Option.bind_some]
          unfold ERef.write
          rw [if_pos (hsz r hr _ hmem), Option.some.injEq, hs1 r hr]
          simp only [cur]
          rw [hR.set_set, hR.get_set]
          congr 1
          funext i
          unfold set1
          have ht : (ys r).take (m + 1) = (ys r).take m ++ [(ys r)[m]] := by
            rw [List.take_add_one, List.getElem?_eq_getElem hm]; rfl
          rw [ht]
          by_cases h5 : i = (ys r)[m]
          · subst h5
            rw [if_pos rfl, if_pos (List.mem_append_right _ (List.mem_singleton.2 rfl))]
          · rw [if_neg h5]
            beta_reduce
            by_cases h6 : i ∈ (ys r).take m
            · rw [if_pos h6, if_pos (List.mem_append_left _ h6)]
            · rw [if_neg h6, if_neg]
              intro hcc
              rcases List.mem_append.1 hcc with h | h
              · exact h6 h
              · exact h5 (List.mem_singleton.1 h)
        · exact absurd hcc (by simp)
      · rintro g2 ⟨h2, h3, h4⟩
        refine ⟨g2, h2, h3, fun r hr => ?_⟩
        rw [h4 r]
        by_cases hm : m < (ys r).length
        · rw [if_pos ⟨hr, by simp [hm]⟩]
        · rw [if_neg (by simp [hm]), hs1 r hr]
          simp only [cur]
          rw [List.take_of_length_le (by omega), List.take_of_length_le (by omega)])
  refine ⟨g', A.congr fun r => ?_, B.1, fun r hr => ?_⟩
  · by_cases hr : r ∈ P.ranks
    · rw [if_pos hr, hys r hr]
      unfold allReduceTiles
      dsimp only
      rw [hgr, hme]
    · rw [if_neg hr]
      simp [ys, hr]
  · rw [B.2 r hr]
    simp only [cur]
    rw [List.take_of_length_le (hN r), hys r hr]

end
end DLAF
