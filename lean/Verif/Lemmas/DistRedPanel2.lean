import Verif.Lemmas.DistRedPanel
/- Distributed reduction to band: one reflector of a panel, on one process. -/
namespace DLAF
open scoped Classical
namespace DistRed
variable {K : Type*} [RCLike K] {P : Params2} {n nb band j : Nat} {dt : Coord2 → Dist1}

/-- The taus after some of the panel. -/
noncomputable def tt (j band : Nat) (T0 : Nat → K) (S : PanelSt K) : Nat → K := fun t => if j * band ≤ t then S.taus (t - j * band) else T0 t

section
variable (h : Geo P n nb band j)
include h

/-- `x0` and the squares of the local rows. -/
theorem Geo.x0sq_eq {r : Coord2} (hr : r ∈ onCol P nb band j) {A : Elems K} {s : RbSt K} (hA : WinAt P n nb n nb r A s.a) {q : Nat}
    (hq : q < nr n band j) :
    ∃ f, x0sq nb band (P.on r) j q s = some { s with sq := set1 s.sq 0 (some ⟨2, 1, f⟩) } ∧
      f 0 0 = (if P.row.dist.rank_global_tile (((j + 1) * band / nb : Nat) : Int) = r.row then A ((j + 1) * band + q) (j * band + q) else 0) ∧
      f 1 0 = ∑ i ∈ (View.tiles (P.row.onRank r.row).dist (((j + 1) * band : Nat) : Int)).toFinset,
        ∑ x ∈ Finset.range (pc nb n band j ((P.row.onRank r.row).gn i)).2,
          if (j + 1) * band + q ≤ (pc nb n band j ((P.row.onRank r.row).gn i)).1 + x then
            (fun x => star (A x (j * band + q)) * A x (j * band + q)) ((pc nb n band j ((P.row.onRank r.row).gn i)).1 + x) else 0 := by
  have hr' := mem_onCol.1 hr
  have hnr : nr n band j = min band (n - band - 1 - j * band) := rfl
  have e0 := h.e0
  refine ⟨_, by unfold x0sq ERef.write; dsimp only; rw [if_pos ⟨rfl, rfl⟩]; rfl, ?_, ?_⟩
  · show (if (0 : Nat) = 0 then _ else _) = _
    rw [if_pos rfl]
    by_cases hh : head band (P.on r) j = true
    · rw [if_pos hh, if_pos ((h.head_iff hr'.1).1 hh)]
      obtain ⟨t1, t2⟩ := h.head_tile hr'.1 hh
      obtain ⟨p1, p2⟩ := h.head_piece hr'.1 t1 t2
      rw [h.el_eq hr hA t1 (by rw [h.hgt_eq hr'.1 t1]; omega) (by omega), p1]
    · rw [if_neg hh, if_neg (fun e => hh ((h.head_iff hr'.1).2 e))]
  · show (if (1 : Nat) = 0 then _ else _) = _
    rw [if_neg (by omega), foldl_add_sum, zero_add, ← List.sum_toFinset _ (h.rows_nodup r), rows_eq]
    refine Finset.sum_congr rfl fun i hi => ?_
    rw [List.mem_toFinset, ← rows_eq] at hi
    rw [← h.tail_sum hr'.1 hi (by omega) (fun x => star (A x (j * band + q)) * A x (j * band + q))]
    refine Finset.sum_congr rfl fun x hx => ?_
    rw [Finset.mem_range] at hx
    rw [h.el_eq hr hA hi (by omega) (by omega)]

/-- A reflector and its tau. -/
theorem Geo.reflTau_ps (hdt : TauInj P n nb band dt) {r : Coord2} (hr : r ∈ onCol P nb band j) {E : RedEnv K} {sb : K → Bool} (hsb : E.signbit = sb)
    {S : PanelSt K} {T0 : Nat → K} {s : RbSt K} (hs : PS P n nb band dt r S.a (tt j band T0 S) s) {q : Nat} (hq : q < nr n band j) {f : Nat → Nat → K}
    (hsq : s.sq 0 = some ⟨2, 1, f⟩) (h0 : f 0 0 = S.a ((j + 1) * band + q) (j * band + q))
    (h1 : f 1 0 = ∑ x ∈ Finset.Ico ((j + 1) * band + q) n, star (S.a x (j * band + q)) * S.a x (j * band + q)) :
    ∃ s', reflTau nb band E (P.on r) (dt r) j q s = some s' ∧
      PS P n nb band dt r (DLAF.reflTau (cfg n nb band j sb) q S).a (tt j band T0 (DLAF.reflTau (cfg n nb band j sb) q S)) s' := by
  obtain ⟨hgr, hok⟩ := h.cfg_ok sb
  have hr' := mem_onCol.1 hr
  have hnr : nr n band j = min band (n - band - 1 - j * band) := rfl
  have e0 := h.e0
  have hread : RbSt.rSq.read 0 s = some ⟨2, 1, f⟩ := hsq
  have hx := x0AndSquares_eq hok hq S.a
  rw [hgr] at hx
  have hc0 : (cfg n nb band j sb).c0 = j * band := rfl
  rw [hc0] at hx
  have htt : ∀ (v : K) (S' : PanelSt K), S'.taus = (fun i => if i = q then v else S.taus i) →
      tt j band T0 S' = fun t => if t = j * band + q then v else tt j band T0 S t := by
    intro v S' e
    funext t
    unfold tt
    rw [e]
    by_cases ht : t = j * band + q
    · rw [if_pos (by omega), if_pos ht]
      beta_reduce
      rw [if_pos (by omega)]
    · rw [if_neg ht]
      by_cases h2 : j * band ≤ t
      · rw [if_pos h2, if_pos h2]
        beta_reduce
        rw [if_neg (by omega)]
      · rw [if_neg h2, if_neg h2]
  unfold reflTau
  rw [hread, Option.bind_some]
  dsimp only
  unfold DLAF.reflTau
  rw [hx]
  dsimp only
  rw [h0, h1]
  by_cases hz : ∑ x ∈ Finset.Ico ((j + 1) * band + q) n, star (S.a x (j * band + q)) * S.a x (j * band + q) = 0
  · rw [if_pos hz, if_pos hz]
    refine ⟨_, rfl, hs.win, ?_⟩
    have := h.setTau_taus hdt hr hs.tau hq 0
    rw [htt 0 _ rfl]
    exact this
  · rw [if_neg hz, if_neg hz]
    have hsbb : (cfg n nb band j sb).signbit = E.signbit := hsb.symm
    rw [hsbb]
    generalize hy : (if E.signbit (S.a ((j + 1) * band + q) (j * band + q)) = true then
      ((Real.sqrt (RCLike.re (∑ x ∈ Finset.Ico ((j + 1) * band + q) n, star (S.a x (j * band + q)) * S.a x (j * band + q))) : ℝ) : K)
      else -((Real.sqrt (RCLike.re (∑ x ∈ Finset.Ico ((j + 1) * band + q) n, star (S.a x (j * band + q)) * S.a x (j * band + q))) : ℝ) : K)) = y
    obtain ⟨a1, a2, a3⟩ := h.setHead_win hr hs.win (q := q) hq (v := y) (v0 := y) (fun _ => rfl)
    rw [a2]
    have hsc := scaleReflector_eq hok hq (1 / (S.a ((j + 1) * band + q) (j * band + q) - y))
      (fun x c => if x = (cfg n nb band j sb).r0 + q ∧ c = (cfg n nb band j sb).c0 + q then y else S.a x c)
    rw [hsc, hgr, hc0]
    obtain ⟨a4, a5, a6⟩ := h.fold_win hr (s := { s with a := a1 }) (A := fun x c => if x = (j + 1) * band + q ∧ c = j * band + q then y else S.a x c) a3
      (u := scaleTile nb band (P.on r) j q (1 / (S.a ((j + 1) * band + q) (j * band + q) - y)))
      (f := fun i x c => if c = q ∧ first band (P.on r) j (q + 1) i ≤ x then
        1 / (S.a ((j + 1) * band + q) (j * band + q) - y) * el nb band (P.on r) j { s with a := a1 } i x c else el nb band (P.on r) j { s with a := a1 } i x c)
      (A' := fun x c => if c = j * band + q ∧ (j + 1) * band + (q + 1) ≤ x ∧ x < n then
          1 / (S.a ((j + 1) * band + q) (j * band + q) - y) * (if x = (j + 1) * band + q ∧ c = j * band + q then y else S.a x c)
        else if x = (j + 1) * band + q ∧ c = j * band + q then y else S.a x c)
      (fun i hi s' e1 e2 => by
        unfold scaleTile
        congr 1
        funext x c
        unfold el
        rw [e1])
      (fun i hi x hx c hc => by
        have hpr := (h.piece_range hr'.1 hi).2
        have hh := h.hgt_eq hr'.1 hi
        have hf := h.first_le hr'.1 hi (q := q + 1) (x := x) (by omega)
        have hel := h.el_eq hr (s := { s with a := a1 }) a3 hi hx hc
        refine if_congr ⟨fun e => ⟨by omega, hf.1 e.2, by omega⟩, fun e => ⟨by omega, hf.2 e.2.1⟩⟩ ?_ hel
        exact congrArg _ hel)
      (fun x hx y' hy' => by rw [if_neg (by omega)])
    rw [a5]
    refine ⟨_, rfl, a6, ?_⟩
    have := h.setTau_taus hdt hr (s := { s with a := a4 }) hs.tau hq ((y - S.a ((j + 1) * band + q) (j * band + q)) / y)
    rw [htt ((y - S.a ((j + 1) * band + q) (j * band + q)) / y) _ rfl]
    exact this

/-- Sums over the workers are sums over the tiles. -/
theorem Geo.sum_workers {r : Coord2} {E : RedEnv K} (hE : 0 < E.availP) (f : Int → K) :
    (upto 1 (nworkers band E (P.on r) j)).foldl (fun x v => x + (workerTiles band E (P.on r) j v).foldl (fun acc i => acc + f i) 0)
      ((workerTiles band E (P.on r) j 0).foldl (fun acc i => acc + f i) 0) = ∑ i ∈ (rows band (P.on r) j).toFinset, f i := by
  have hw : 0 < nworkers band E (P.on r) j := panelWorkers_pos hE
  rw [List.sum_toFinset _ (h.rows_nodup r), ← workers_all (P := P) hE r]
  have e1 : ∀ v, (workerTiles band E (P.on r) j v).foldl (fun acc i => acc + f i) 0 = ((workerTiles band E (P.on r) j v).map f).sum := by
    intro v
    rw [foldl_add_sum, zero_add]
  simp only [e1]
  have e2 : ∀ l : List Nat, ((l.flatMap (workerTiles band E (P.on r) j)).map f).sum = (l.map fun v => ((workerTiles band E (P.on r) j v).map f).sum).sum := by
    intro l
    induction l with
    | nil => rfl
    | cons a l ih => rw [List.flatMap_cons, List.map_append, List.sum_append, ih, List.map_cons, List.sum_cons]
  rw [foldl_add_sum, e2]
  obtain ⟨m, hm⟩ : ∃ m, nworkers band E (P.on r) j = m + 1 := ⟨_, (Nat.succ_pred_eq_of_pos hw).symm⟩
  rw [hm, List.range_eq_range', List.range'_succ, List.map_cons, List.sum_cons]
  rfl

end
end DistRed
end DLAF
