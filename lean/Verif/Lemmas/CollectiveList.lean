import Verif.Lemmas.DistElem
import Verif.Lemmas.DistCholesky
/- Collectives one after the other over lists that are the same on all members of a communicator. -/
namespace DLAF
section
variable {S V : Type*}

theorem exists_length_bound {X : Type*} (G : List Coord2) (ys : Coord2 → List X) (h : ∀ r, r ∉ G → ys r = []) : ∃ N, ∀ r, (ys r).length ≤ N := by
  have : ∀ L : List Coord2, ∃ N, ∀ r ∈ L, (ys r).length ≤ N := by
    intro L
    induction L with
    | nil => exact ⟨0, by simp⟩
    | cons a L ih =>
      obtain ⟨N, hN⟩ := ih
      refine ⟨max N (ys a).length, fun r hr => ?_⟩
      rcases List.mem_cons.1 hr with rfl | hr
      · omega
      · have := hN r hr; omega
  obtain ⟨N, hN⟩ := this G
  refine ⟨N, fun r => ?_⟩
  by_cases hr : r ∈ G
  · exact hN r hr
  · simp [h r hr]

/-- The program of one position: local work, then a collective (if `part`). -/
def collProg (part : Bool) (ch : Coord2 → Chan) (pre : Coord2 → Int → List (S → Option S)) (posts : Coord2 → Int → Bool)
    (gp : Coord2 → Int → S → Option (S × V)) (sg : Coord2 → Int → Sig) (srcs : Coord2 → Int → List Coord2)
    (ft : Coord2 → Int → S → List V → Option S) (r : Coord2) (i : Int) : List (Instr S V) :=
  (pre r i).map .loc ++ if part then (if posts r i then [.post (ch r) (gp r i)] else []) ++ [.take (ch r) (sg r i) (srcs r i) (ft r i)] else []

/-- Local work and collectives, position by position. `F r l` is the state after the positions `l`, `M r l i` the one after the local
work of position `i`. -/
theorem collective_list {G : List Coord2} (hG : G.Nodup) {g : Glob S V} (hc : Clean G g) (part : Bool) (ch : Coord2 → Chan)
    (ys : Coord2 → List Int) (hch : ∀ r ∈ G, (ch r).has r = true)
    (hmem : ∀ r ∈ G, ∀ s ∈ G, (ch r).has s = true → ch s = ch r ∧ ys s = ys r)
    (pre : Coord2 → Int → List (S → Option S)) (posts : Coord2 → Int → Bool)
    (gp : Coord2 → Int → S → Option (S × V)) (sg : Coord2 → Int → Sig) (srcs : Coord2 → Int → List Coord2)
    (ft : Coord2 → Int → S → List V → Option S) (F : Coord2 → List Int → S) (M : Coord2 → List Int → Int → S) (v : Coord2 → Int → V)
    (h0 : ∀ r ∈ G, F r [] = g.st r)
    (hpre : ∀ r ∈ G, ∀ l i, (∃ t, ys r = l ++ i :: t) → runLocs (pre r i) (F r l) = some (M r l i))
    (hno : part = false → ∀ r ∈ G, ∀ l i, (∃ t, ys r = l ++ i :: t) → M r l i = F r (l ++ [i]))
    (hpost : part = true → ∀ r ∈ G, ∀ l i, (∃ t, ys r = l ++ i :: t) → posts r i = true → gp r i (M r l i) = some (M r l i, v r i))
    (hsrc : part = true → ∀ r ∈ G, ∀ i ∈ ys r, ∀ s ∈ srcs r i, s ∈ G ∧ (ch r).has s = true ∧ posts s i = true)
    (htake : part = true → ∀ r ∈ G, ∀ l i, (∃ t, ys r = l ++ i :: t) →
      ft r i (M r l i) ((srcs r i).map fun s => v s i) = some (F r (l ++ [i]))) :
    ∃ g', Runs (fun r => if r ∈ G then (ys r).flatMap (collProg part ch pre posts gp sg srcs ft r) else []) g g' ∧ Clean G g' ∧
      ∀ r ∈ G, g'.st r = F r (ys r) := by
  let zs : Coord2 → List Int := fun r => if r ∈ G then ys r else []
  have hzs : ∀ r ∈ G, zs r = ys r := fun r h => if_pos h
  obtain ⟨N, hN⟩ := exists_length_bound G zs fun r h => if_neg h
  obtain ⟨g', A, B⟩ := Runs.lists (p := collProg part ch pre posts gp sg srcs ft) zs
    (fun m g' => Clean G g' ∧ ∀ r ∈ G, g'.st r = F r ((ys r).take m)) hN (g := g)
    ⟨hc, fun r hr => by rw [List.take_zero, h0 r hr]⟩ (by
      intro m _ g1 ⟨hc1, hs1⟩
      -- decomposition at position m
      have hdec : ∀ r ∈ G, ∀ hm : m < (ys r).length, ∃ t, ys r = (ys r).take m ++ (ys r)[m] :: t := by
        intro r _ hm
        exact ⟨(ys r).drop (m + 1), by rw [← List.drop_eq_getElem_cons hm, List.take_append_drop]⟩
      have htk : ∀ r ∈ G, ∀ hm : m < (ys r).length, (ys r).take (m + 1) = (ys r).take m ++ [(ys r)[m]] := by
        intro r _ hm
        rw [List.take_add_one, List.getElem?_eq_getElem hm]; rfl
      have hov : ∀ r, ¬ m < (ys r).length → (ys r).take (m + 1) = (ys r).take m := by
        intro r hm
        rw [List.take_of_length_le (by omega), List.take_of_length_le (by omega)]
      let mid : Coord2 → S := fun r => ((ys r)[m]?).elim (F r ((ys r).take m)) (M r ((ys r).take m))
      have A1 := Runs.locals (V := V) hG (g := g1) (p := fun r => if r ∈ G then (((ys r)[m]?).elim [] (pre r)).map Instr.loc else [])
        (fun r => ((ys r)[m]?).elim [] (pre r)) mid (fun r => rfl) (by
          intro r hr
          rw [hs1 r hr]
          by_cases hm : m < (ys r).length
          · simp only [List.getElem?_eq_getElem hm, Option.elim_some, mid]
            exact hpre r hr _ _ (hdec r hr hm)
          · simp only [List.getElem?_eq_none (Nat.le_of_not_lt hm), Option.elim_none, mid]
            rfl)
      have hc2 := hc1.withSt fun r => if r ∈ G then mid r else g1.st r
      generalize hg2 : ({ g1 with st := fun r => if r ∈ G then mid r else g1.st r } : Glob S V) = g2 at A1 hc2
      have hs2 : ∀ r ∈ G, g2.st r = mid r := by intro r hr; rw [← hg2]; exact if_pos hr
      cases part with
      | false =>
        refine ⟨g2, A1.congr fun r => ?_, hc2, fun r hr => ?_⟩
        · by_cases hr : r ∈ G
          · rw [if_pos hr, hzs r hr]
            cases (ys r)[m]? with
            | none => rfl
            | some i => simp [collProg]
          · rw [if_neg hr]; simp [zs, hr]
        · rw [hs2 r hr]
          by_cases hm : m < (ys r).length
          · simp only [List.getElem?_eq_getElem hm, Option.elim_some, mid]
            rw [htk r hr hm]
            exact hno rfl r hr _ _ (hdec r hr hm)
          · simp only [List.getElem?_eq_none (Nat.le_of_not_lt hm), Option.elim_none, mid]
            rw [hov r hm]
      | true =>
        refine Exists.elim (collective_phase (G := G) (g := g2) hG hc2
          (p := fun r => if r ∈ G then ((ys r)[m]?).elim [] fun i =>
            (if posts r i then [.post (ch r) (gp r i)] else []) ++ [.take (ch r) (sg r i) (srcs r i) (ft r i)] else [])
          (fun r => if m < (ys r).length then some (ch r) else none) (fun r => ((ys r)[m]?).elim false (posts r))
          (fun r s => ((ys r)[m]?).bind fun i => gp r i s) (fun r => ((ys r)[m]?).elim .allReduce (sg r))
          (fun r => ((ys r)[m]?).elim [] (srcs r)) (fun r s vs => ((ys r)[m]?).bind fun i => ft r i s vs) mid
          (fun r => F r ((ys r).take (m + 1))) (fun r => v r ((ys r).getD m 0)) ?_ ?_ ?_ ?_ ?_ ?_) ?_
        · intro r hr
          rw [if_pos hr]
          by_cases hm : m < (ys r).length
          · simp only [hm, if_true, List.getElem?_eq_getElem hm, Option.elim_some]
            rfl
          · simp only [hm, if_false, List.getElem?_eq_none (Nat.le_of_not_lt hm), Option.elim_none]
        · intro r hr
          rw [if_neg hr]
        · intro r hr c hcc
          split at hcc
          · rename_i hm
            rw [Option.some.injEq] at hcc
            subst hcc
            refine ⟨hch r hr, fun s hs hh => ?_⟩
            obtain ⟨e1, e2⟩ := hmem r hr s hs hh
            beta_reduce
            rw [e2, if_pos hm, e1]
          · exact absurd hcc (by simp)
        · intro r hr c hcc
          split at hcc
          · rename_i hm
            rw [hs2 r hr]
            simp only [List.getElem?_eq_getElem hm, Option.elim_some, Option.bind_some, mid]
            split
            · rename_i hps
              rw [hpost rfl r hr _ _ (hdec r hr hm) hps]
              simp [List.getD, hm]
            · trivial
          · exact absurd hcc (by simp)
        · intro r hr c hcc s hs
          split at hcc
          · rename_i hm
            rw [Option.some.injEq] at hcc
            subst hcc
            simp only [List.getElem?_eq_getElem hm, Option.elim_some] at hs
            obtain ⟨a, b, d⟩ := hsrc rfl r hr _ (List.getElem_mem hm) s hs
            refine ⟨a, b, ?_⟩
            have e := (hmem r hr s a b).2
            beta_reduce
            rw [e, List.getElem?_eq_getElem hm, Option.elim_some]
            exact d
          · exact absurd hcc (by simp)
        · intro r hr c hcc
          split at hcc
          · rename_i hm
            simp only [List.getElem?_eq_getElem hm, Option.elim_some, Option.bind_some, mid]
            have e : (srcs r (ys r)[m]).map (fun s => v s ((ys s).getD m 0)) = (srcs r (ys r)[m]).map fun s => v s (ys r)[m] := by
              refine List.map_congr_left fun s hs => ?_
              obtain ⟨a, b, d⟩ := hsrc rfl r hr _ (List.getElem_mem hm) s hs
              rw [(hmem r hr s a b).2]
              simp [List.getD, hm]
            rw [e, htk r hr hm]
            exact htake rfl r hr _ _ (hdec r hr hm)
          · exact absurd hcc (by simp)
        · rintro g3 ⟨A2, hc3, hs3⟩
          refine ⟨g3, (A1.append A2).congr fun r => ?_, hc3, fun r hr => ?_⟩
          · by_cases hr : r ∈ G
            · rw [if_pos hr, if_pos hr, hzs r hr]
              cases (ys r)[m]? with
              | none => rfl
              | some i => simp [collProg]
            · rw [if_neg hr, if_neg hr]; simp [zs, hr]
          · rw [hs3 r]
            by_cases hm : m < (ys r).length
            · rw [if_pos ⟨hr, by simp [hm]⟩]
            · rw [if_neg (by simp [hm]), hs2 r hr, hov r hm]
              simp only [List.getElem?_eq_none (Nat.le_of_not_lt hm), Option.elim_none, mid])
  refine ⟨g', A.congr fun r => ?_, B.1, fun r hr => ?_⟩
  · by_cases hr : r ∈ G
    · rw [if_pos hr, hzs r hr]
    · rw [if_neg hr]; simp [zs, hr]
  · rw [B.2 r hr, List.take_of_length_le]
    have := hN r
    rw [hzs r hr] at this
    exact this

theorem flatMap_ite_filter {X Y : Type*} (p : X → Prop) [DecidablePred p] (f : X → List Y) (l : List X) :
    (l.flatMap fun x => if p x then f x else []) = (l.filter p).flatMap f := by
  induction l with
  | nil => rfl
  | cons x l ih =>
    rw [List.flatMap_cons, ih, List.filter_cons]
    by_cases h : p x
    · simp [h]
    · simp [h]

end
end DLAF
