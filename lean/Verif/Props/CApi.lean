import Verif.Lemmas.CApi3
/- C62: the ScaLAPACK interface of the Cholesky factorization and of the inverse from the factor. -/
namespace DLAF
variable {K : Type*} [Field K] [StarRing K]

open ScaMat

section
variable {lp : Lapack K} {pos : K → Prop} (hlp : LapackSpec lp pos) (hpos : Positive pos) {S : ScaMat} (hS : S.Legal) {c : Char} {u : Uplo} (hc : UploChar c u)
  (heavy dbg : Bool) {lld : Coord2 → Nat} (hlld : ∀ r, S.OnGrid r → S.LldOk r (lld r)) (ctx dm dn : Int) (buf : Coord2 → Int → K)
include hlp hpos hS hc hlld

/-- C62.  `p?potrf` of the C API on a grid: for every order, block size, grid, source process, leading dimensions and contents of the buffers, both triangles, and every schedule
of the processes, if the `u` triangle of the matrix in the buffers is that of a Hermitian matrix with Cholesky factor `F`, then the call is accepted on every process and ends, without
abort or deadlock; the `u` triangle of the matrix in the buffers is then `F`, and nothing else in any buffer has changed. -/
theorem C62_pxpotrf {F : Nat → Nat → K} (hF : IsChol pos u S.n (S.elem lld buf) F) :
    ∃ call : Coord2 → CApiCall (CholState K) K,
      (∀ r, S.OnGrid r → pxpotrf heavy dbg lp ⟨S.npr, S.npc⟩ r c S.n (buf r) 1 1 (S.desc ctx dm dn (lld r)) = some (call r)) ∧
      AlwaysEnds (Conf.init (fun r => if r ∈ S.procs then (call r).prog else []) fun r => (call r).st) fun fin =>
        (∀ x < S.n, ∀ y < S.n, inTri u .NonUnit x y → S.elem lld (fun r => (call r).out (fin r)) x y = F x y) ∧
        ∀ r, S.OnGrid r → ∀ a, (∀ x < S.n, ∀ y < S.n, inTri u .NonUnit x y → S.owner x y = r → a ≠ S.pos (lld r) x y) →
          (call r).out (fin r) a = buf r a := by
  classical
  have hsd := square hS
  haveI : Nonempty MatrixMem := by obtain ⟨x, -⟩ := ScaMat.setUp hS (owner_onGrid hS 0 0) (hlld _ (mem_ranks.1 (owner_onGrid hS 0 0))); exact ⟨x⟩
  choose! mem hmem using fun r (hr : r ∈ S.params.ranks) => ScaMat.setUp hS hr (hlld r (mem_ranks.1 hr))
  have h1l : ∀ r ∈ S.params.ranks, 1 ≤ lld r := fun r hr => by have := hlld r (mem_ranks.1 hr); unfold LldOk at this; omega
  have ht := fun {i j : Nat} => tiles_at hS mem lld buf hmem h1l (i := i) (j := j)
  haveI : Nonempty (CholState K) := by obtain ⟨x, -⟩ := C30_workspaces_created (K := K) hsd u (owner_onGrid hS 0 0) (fun _ => ⟨0, 0, fun _ _ => 0⟩); exact ⟨x⟩
  choose! st hst using fun r (hr : r ∈ S.params.ranks) => C30_workspaces_created (K := K) hsd u hr (loadTile (mem r) (S.params.on r) (buf r))
  have hsh : Shaped (S.tiles mem buf) S.params.row.tileSizes S.params.row.tileSizes S.params.nt S.params.nt :=
    fun i hi j hj => ⟨(ht hi hj).1, (ht hi hj).2.1⟩
  have hU : ∀ sel, HoldsOn (S.tiles mem buf) S.params.row.tileSizes S.params.row.tileSizes S.params.nt S.params.nt (S.elem lld buf) sel :=
    fun sel i hi j hj r hr c hc _ => (ht hi hj).2.2 r hr c hc
  refine ⟨fun r => ⟨st r, distCholesky dbg lp u (S.params.on r), fun s => storeTiles (mem r) (S.params.on r) s.mat (buf r)⟩, ?_, ?_⟩
  · intro r hr
    have hr' := mem_ranks.2 hr
    rw [pxpotrf_eq hS hr' heavy dbg lp hc ctx dm dn (buf r) (hmem r hr'), hst r hr']
    rfl
  · rw [← start_all hS] at hF
    have main : AlwaysEnds (Conf.init (fun r => if r ∈ S.params.ranks then distCholesky dbg lp u (S.params.on r) else []) st) fun fin =>
        ∃ m1, (∀ r ∈ S.params.ranks, HoldsTiles S.params S.params.nt S.params.nt r m1 (fin r).mat) ∧
          HoldsOn m1 S.params.row.tileSizes S.params.row.tileSizes S.params.nt S.params.nt F (inTri u .NonUnit) ∧
          HoldsOn m1 S.params.row.tileSizes S.params.row.tileSizes S.params.nt S.params.nt (S.elem lld buf) fun x y => ¬ inTri u .NonUnit x y := by
      cases u with
      | Lower =>
        obtain ⟨k, f, d1, ⟨m1, d2, d3, d4⟩, d5⟩ := C30_distributed_factor_lower hlp hpos hsd dbg hsh (hU _) hF (fun r _ => load_holds mem buf r) hst
        refine ⟨k, f, d1, ⟨m1, d2, ?_, ?_⟩, d5⟩
        · intro i hi j hj a ha b hb hs
          exact d3 i hi j hj a ha b hb (by rcases hs with h | h <;> omega)
        · intro i hi j hj a ha b hb hs
          exact d4 _ (hU _) i hi j hj a ha b hb (by by_contra h; exact hs (by show _ < _ ∨ (_ = _ ∧ Diag.NonUnit = Diag.NonUnit); simp only [and_true]; omega))
      | Upper =>
        obtain ⟨k, f, d1, ⟨m1, d2, d3, d4⟩, d5⟩ := C30_distributed_factor_upper hlp hpos hsd dbg hsh (hU _) hF (fun r _ => load_holds mem buf r) hst
        refine ⟨k, f, d1, ⟨m1, d2, ?_, ?_⟩, d5⟩
        · intro i hi j hj a ha b hb hs
          exact d3 i hi j hj a ha b hb (by rcases hs with h | h <;> omega)
        · intro i hi j hj a ha b hb hs
          exact d4 _ (hU _) i hi j hj a ha b hb (by by_contra h; exact hs (by show _ < _ ∨ (_ = _ ∧ Diag.NonUnit = Diag.NonUnit); simp only [and_true]; omega))
    obtain ⟨k, f, d1, ⟨m1, d2, d3, d4⟩, d5⟩ := main
    refine ⟨k, f, d1, ?_, d5⟩
    obtain ⟨o1, o2⟩ := out_spec hS hlld hmem d2 (F := fun x y => if inTri u .NonUnit x y then F x y else S.elem lld buf x y)
      (by
        intro i hi j hj a ha b hb _
        dsimp only
        split
        · rename_i h; exact d3 i hi j hj a ha b hb h
        · rename_i h; exact d4 i hi j hj a ha b hb h)
      (sel := inTri u .NonUnit) (fun x _ y _ h => if_neg h)
    exact ⟨fun x hx y hy h => (o1 x hx y hy).trans (if_pos h), o2⟩

/-- C62.  `p?potri` of the C API on a grid: if the `u` triangle of the matrix in the buffers is the Cholesky factor of a Hermitian matrix `A`, then the call is accepted on every process
and ends under every schedule; the Hermitian matrix given by the `u` triangle of the matrix in the buffers is then the inverse of `A`, and nothing else in any buffer has changed. -/
theorem C62_pxpotri {A : Nat → Nat → K} (hA : IsChol pos u S.n A (S.elem lld buf)) :
    ∃ call : Coord2 → CApiCall (DSt K) K,
      (∀ r, S.OnGrid r → pxpotri heavy dbg lp ⟨S.npr, S.npc⟩ r c S.n (buf r) 1 1 (S.desc ctx dm dn (lld r)) = some (call r)) ∧
      AlwaysEnds (Conf.init (fun r => if r ∈ S.procs then (call r).prog else []) fun r => (call r).st) fun fin =>
        (∀ x < S.n, ∀ y < S.n, ∑ l ∈ Finset.range S.n, hermE u A x l * hermE u (S.elem lld fun r => (call r).out (fin r)) l y = if x = y then 1 else 0) ∧
        ∀ r, S.OnGrid r → ∀ a, (∀ x < S.n, ∀ y < S.n, inTri u .NonUnit x y → S.owner x y = r → a ≠ S.pos (lld r) x y) →
          (call r).out (fin r) a = buf r a := by
  classical
  have hsd := square hS
  haveI : Nonempty MatrixMem := by obtain ⟨x, -⟩ := ScaMat.setUp hS (owner_onGrid hS 0 0) (hlld _ (mem_ranks.1 (owner_onGrid hS 0 0))); exact ⟨x⟩
  choose! mem hmem using fun r (hr : r ∈ S.params.ranks) => ScaMat.setUp hS hr (hlld r (mem_ranks.1 hr))
  have h1l : ∀ r ∈ S.params.ranks, 1 ≤ lld r := fun r hr => by have := hlld r (mem_ranks.1 hr); unfold LldOk at this; omega
  have ht := fun {i j : Nat} => tiles_at hS mem lld buf hmem h1l (i := i) (j := j)
  haveI : Nonempty (DSt K) := by obtain ⟨x, -⟩ := C58_workspaces_created (K := K) hsd u (owner_onGrid hS 0 0) (fun _ => ⟨0, 0, fun _ _ => 0⟩); exact ⟨x⟩
  choose! st hst using fun r (hr : r ∈ S.params.ranks) => C58_workspaces_created (K := K) hsd u hr (loadTile (mem r) (S.params.on r) (buf r))
  have hsh : Shaped (S.tiles mem buf) S.params.row.tileSizes S.params.row.tileSizes S.params.nt S.params.nt :=
    fun i hi j hj => ⟨(ht hi hj).1, (ht hi hj).2.1⟩
  have hU : HoldsOn (S.tiles mem buf) S.params.row.tileSizes S.params.row.tileSizes S.params.nt S.params.nt (S.elem lld buf) fun _ _ => True :=
    fun i hi j hj r hr c hc _ => (ht hi hj).2.2 r hr c hc
  refine ⟨fun r => ⟨st r, distInverseFromCholesky lp u dbg (S.params.on r), fun s => storeTiles (mem r) (S.params.on r) (s.mat 0) (buf r)⟩, ?_, ?_⟩
  · intro r hr
    have hr' := mem_ranks.2 hr
    rw [pxpotri_eq hS hr' heavy dbg lp hc ctx dm dn (buf r) (hmem r hr'), hst r hr']
    rfl
  · rw [← start_all hS] at hA
    obtain ⟨k, f, d1, ⟨m1, X, d2, -, d3, d4, d6⟩, d5⟩ := C59_distributed_inverse_from_cholesky hlp hpos hsd u dbg hsh hU hA (fun r _ => load_holds mem buf r) hst
    refine ⟨k, f, d1, ?_, d5⟩
    rw [start_all hS] at d4
    obtain ⟨o1, o2⟩ := out_spec hS hlld hmem d2 d3 (sel := inTri u .NonUnit) (fun x _ y _ h => d6 x y h)
    refine ⟨fun x hx y hy => ?_, o2⟩
    rw [← d4 x hx y hy]
    refine Finset.sum_congr rfl fun l hl => ?_
    have hl' := Finset.mem_range.1 hl
    congr 1
    unfold hermE
    cases u <;> dsimp only <;> rw [o1 l hl' y hy, o1 y hy l hl']

/-- C62.  `p?potrf` followed by `p?potri` on the same buffers: the inverse of the Hermitian matrix given by the `u` triangle of the matrix in the buffers. -/
theorem C62_factorize_and_invert {F : Nat → Nat → K} (hF : IsChol pos u S.n (S.elem lld buf) F) :
    ∃ call : Coord2 → CApiCall (CholState K) K,
      (∀ r, S.OnGrid r → pxpotrf heavy dbg lp ⟨S.npr, S.npc⟩ r c S.n (buf r) 1 1 (S.desc ctx dm dn (lld r)) = some (call r)) ∧
      AlwaysEnds (Conf.init (fun r => if r ∈ S.procs then (call r).prog else []) fun r => (call r).st) fun mid =>
        ∃ call' : Coord2 → CApiCall (DSt K) K,
          (∀ r, S.OnGrid r → pxpotri heavy dbg lp ⟨S.npr, S.npc⟩ r c S.n ((call r).out (mid r)) 1 1 (S.desc ctx dm dn (lld r)) = some (call' r)) ∧
          AlwaysEnds (Conf.init (fun r => if r ∈ S.procs then (call' r).prog else []) fun r => (call' r).st) fun fin =>
            (∀ x < S.n, ∀ y < S.n, ∑ l ∈ Finset.range S.n,
              hermE u (S.elem lld buf) x l * hermE u (S.elem lld fun r => (call' r).out (fin r)) l y = if x = y then 1 else 0) ∧
            ∀ r, S.OnGrid r → ∀ a, (∀ x < S.n, ∀ y < S.n, inTri u .NonUnit x y → S.owner x y = r → a ≠ S.pos (lld r) x y) →
              (call' r).out (fin r) a = buf r a := by
  obtain ⟨call, c1, k, f, d1, ⟨d2, d3⟩, d4⟩ := C62_pxpotrf hlp hpos hS hc heavy dbg hlld ctx dm dn buf hF
  refine ⟨call, c1, k, f, d1, ?_, d4⟩
  have hF' : IsChol pos u S.n (S.elem lld buf) (S.elem lld fun r => (call r).out (f.st r)) := by
    obtain ⟨p1, p2⟩ := hF
    refine ⟨fun i hi => by rw [d2 i hi i hi (by cases u <;> exact Or.inr ⟨rfl, rfl⟩)]; exact p1 i hi, ?_⟩
    cases u with
    | Lower =>
      intro r hr c hc
      rw [← p2 r hr c hc]
      refine Finset.sum_congr rfl fun l hl => ?_
      have := Finset.mem_range.1 hl
      rw [d2 r hr l (by omega) (by show _ < _ ∨ (_ = _ ∧ _); simp only [and_true]; omega), d2 c (by omega) l (by omega) (by show _ < _ ∨ (_ = _ ∧ _); simp only [and_true]; omega)]
    | Upper =>
      intro c hc r hr
      rw [← p2 c hc r hr]
      refine Finset.sum_congr rfl fun l hl => ?_
      have := Finset.mem_range.1 hl
      rw [d2 l (by omega) r (by omega) (by show _ < _ ∨ (_ = _ ∧ _); simp only [and_true]; omega), d2 l (by omega) c hc (by show _ < _ ∨ (_ = _ ∧ _); simp only [and_true]; omega)]
  obtain ⟨call', e1, k', f', g1, ⟨g2, g3⟩, g4⟩ := C62_pxpotri hlp hpos hS hc heavy dbg hlld ctx dm dn (fun r => (call r).out (f.st r)) hF'
  refine ⟨call', e1, k', f', g1, ⟨g2, fun r hr a ha => ?_⟩, g4⟩
  rw [g3 r hr a ha]
  exact d3 r hr a ha

end
/-- C62.  What a call of `p?potrf` that is not refused satisfies, in a Debug build: a dense descriptor, the whole matrix (`ia = ja = 1`), an order that is not negative,
square blocks, a source process and a rank that are on the grid, and a character that names a triangle (or `G`: see below). -/
theorem C62_accepted_calls_are_legal {dbg : Bool} {lp : Lapack K} {grid rank : Coord2} {c : Char} {n ia ja : Int} {buf : Int → K} {desca : Fin 9 → Int}
    (h : (pxpotrf true dbg lp grid rank c n buf ia ja desca).isSome ∨ (pxpotri true dbg lp grid rank c n buf ia ja desca).isSome) :
    (desca 0 = 1 ∧ ia = 1 ∧ ja = 1) ∧ 0 ≤ n ∧ 0 < desca 4 ∧ desca 4 = desca 5 ∧
    (0 ≤ desca 6 ∧ desca 6 < grid.row ∧ 0 ≤ desca 7 ∧ desca 7 < grid.col) ∧ (0 ≤ rank.row ∧ rank.row < grid.row ∧ 0 ≤ rank.col ∧ rank.col < grid.col) ∧
    c ∈ ['L', 'l', 'U', 'u', 'G', 'g'] := by
  have key : (desca 0 = 1 ∧ ia = 1 ∧ ja = 1) ∧ ∃ d, makeLayout true grid rank ⟨n, n, desca 4, desca 5, desca 6, desca 7, ia - 1, ja - 1, desca 8⟩ = some d ∧
      capiChecks grid rank d ∧ (charToUplo c).isSome := by
    have hd : ∀ D, makeDescriptor n n ia ja desca = some D → D = ⟨n, n, desca 4, desca 5, desca 6, desca 7, ia - 1, ja - 1, desca 8⟩ := by
      intro D hD
      unfold makeDescriptor at hD
      split at hD
      · exact (Option.some.inj hD).symm
      · cases hD
    rcases h with h | h <;> (
      obtain ⟨call, h⟩ := Option.isSome_iff_exists.1 h
      first | unfold pxpotrf at h | unfold pxpotri at h
      split at h
      · cases h
      · rename_i h0
        obtain ⟨D, e1, h⟩ := Option.bind_eq_some_iff.1 h
        split at h
        · cases h
        · obtain ⟨d, e2, h⟩ := Option.bind_eq_some_iff.1 h
          obtain ⟨mem, e3, h⟩ := Option.bind_eq_some_iff.1 h
          obtain ⟨u, e4, h⟩ := Option.bind_eq_some_iff.1 h
          split at h
          · cases h
          · rename_i h3
            rw [hd D e1] at e2
            exact ⟨not_not.1 h0, d, e2, not_not.1 h3, by rw [e4]; rfl⟩)
  obtain ⟨k0, d, k1, k2, k3⟩ := key
  unfold makeLayout Distribution.create at k1
  dsimp only at k1
  split at k1
  · rename_i ha
    simp only [Bool.and_eq_true] at ha
    have v1 := (C39_accepts_iff_valid_partial _ _ _ _ _ _ _ (le_refl 0)).1 ha.1
    have v2 := (C39_accepts_iff_valid_partial _ _ _ _ _ _ _ (le_refl 0)).1 ha.2
    obtain ⟨a1, a2, a3, a4, a5, a6, a7, a8⟩ := v1
    obtain ⟨b1, b2, b3, b4, b5, b6, b7, b8⟩ := v2
    obtain ⟨-, q, -⟩ := k2
    rw [← Option.some.inj k1] at q
    refine ⟨k0, a1, a2, q, ⟨a7.1, a7.2, b7.1, b7.2⟩, ⟨a6.1, a6.2, b6.1, b6.2⟩, ?_⟩
    unfold charToUplo at k3
    simp only [List.mem_cons, List.not_mem_nil, or_false]
    split at k3
    · tauto
    · split at k3
      · tauto
      · cases k3
  · cases k1

/-- Finding F31: the character for a general matrix is accepted, and handled as the one for the upper triangle. -/
theorem C62_general_is_upper (heavy dbg : Bool) (lp : Lapack K) (grid rank : Coord2) (n : Int) (buf : Int → K) (ia ja : Int) (desca : Fin 9 → Int) :
    pxpotrf heavy dbg lp grid rank 'G' n buf ia ja desca = pxpotrf heavy dbg lp grid rank 'U' n buf ia ja desca ∧
    pxpotri heavy dbg lp grid rank 'G' n buf ia ja desca = pxpotri heavy dbg lp grid rank 'U' n buf ia ja desca := by
  have h : charToUplo 'G' = charToUplo 'U' := by decide
  unfold pxpotrf pxpotri
  rw [h]
  exact ⟨rfl, rfl⟩

/- Non-vacuity: the matrix `L Lᵀ`, `L = [[1,0,0],[2,3,0],[4,5,6]]`, in blocks of 2 x 2, on a 2 x 3 grid whose process (1, 2) holds the first block, with leading dimension 5. -/
section example_
private def exS : ScaMat := ⟨3, 2, 2, 3, 1, 2⟩
private def exL : Nat → Nat → ℚ
  | 0, 0 => 1
  | 1, 0 => 2
  | 1, 1 => 3
  | 2, 0 => 4
  | 2, 1 => 5
  | 2, 2 => 6
  | _, _ => 0
private def exA (r c : Nat) : ℚ := ∑ l ∈ Finset.range 3, exL r l * exL c l
/- the buffers: 99 where there is no element of the matrix -/
private def exBuf (r : Coord2) (a : Int) : ℚ :=
  if r = ⟨1, 2⟩ then (if a = 0 then exA 0 0 else if a = 1 then exA 1 0 else if a = 5 then 77 else if a = 6 then exA 1 1 else 99)
  else if r = ⟨0, 2⟩ then (if a = 0 then exA 2 0 else if a = 5 then exA 2 1 else 99)
  else if r = ⟨1, 0⟩ then (if a = 0 then 55 else if a = 1 then 44 else 99)
  else if r = ⟨0, 0⟩ ∧ a = 0 then exA 2 2 else 99

private instance (x y : Nat) : Decidable (inTri .Lower .NonUnit x y) := by unfold inTri; dsimp only; infer_instance

private theorem exLld : ∀ r, exS.OnGrid r → exS.LldOk r 5 := by
  rintro ⟨i, j⟩ ⟨⟨h1, h2⟩, h3, h4⟩
  dsimp only at h1 h2 h3 h4
  have h2' : i < 2 := h2
  have h4' : j < 3 := h4
  interval_cases i <;> interval_cases j <;> decide

private theorem exChol : IsChol posQ .Lower 3 (exS.elem (fun _ => 5) exBuf) exL := by
  have e : ∀ x y, (exS.elem (fun _ => 5) exBuf) x y = exBuf (exS.owner x y) (exS.pos 5 x y) := fun _ _ => rfl
  refine ⟨?_, ?_⟩
  · intro i hi
    interval_cases i <;> (unfold posQ; simp [exL])
  · intro r hr c hc
    interval_cases r <;> interval_cases c <;> rw [e] <;>
      simp [exS, owner, pos, indxg2l, indxg2p, exBuf, exA, exL, Finset.sum_range_succ]

example : ∃ call : Coord2 → CApiCall (CholState ℚ) ℚ,
    (∀ r, exS.OnGrid r → pxpotrf true true (lapackOf posQ) ⟨2, 3⟩ r 'L' 3 (exBuf r) 1 1 (exS.desc 0 3 3 5) = some (call r)) ∧
    AlwaysEnds (Conf.init (fun r => if r ∈ exS.procs then (call r).prog else []) fun r => (call r).st) fun fin =>
      (call ⟨0, 2⟩).out (fin ⟨0, 2⟩) 0 = 4 ∧ (call ⟨0, 0⟩).out (fin ⟨0, 0⟩) 0 = 6 ∧ (call ⟨1, 2⟩).out (fin ⟨1, 2⟩) 5 = 77 ∧ (call ⟨0, 1⟩).out (fin ⟨0, 1⟩) 0 = 99 := by
  obtain ⟨call, h1, k, f, h2, ⟨h3, h4⟩, h5⟩ := C62_pxpotrf (lapack_spec posQ) positiveQ (S := exS) (by decide) (c := 'L') (u := .Lower) (Or.inl ⟨rfl, Or.inl rfl⟩) true true
    (lld := fun _ => 5) exLld 0 3 3 exBuf exChol
  refine ⟨call, h1, k, f, h2, ⟨?_, ?_, ?_, ?_⟩, h5⟩
  · exact h3 2 (by decide) 0 (by decide) (by decide)
  · exact h3 2 (by decide) 2 (by decide) (by decide)
  · rw [h4 ⟨1, 2⟩ (by decide) 5 (by decide)]
    simp [exBuf]
  · rw [h4 ⟨0, 1⟩ (by decide) 0 (by decide)]
    simp [exBuf]

example : ∃ call : Coord2 → CApiCall (CholState ℚ) ℚ,
    (∀ r, exS.OnGrid r → pxpotrf true true (lapackOf posQ) ⟨2, 3⟩ r 'l' 3 (exBuf r) 1 1 (exS.desc 0 3 3 5) = some (call r)) ∧
    AlwaysEnds (Conf.init (fun r => if r ∈ exS.procs then (call r).prog else []) fun r => (call r).st) fun mid =>
      ∃ call' : Coord2 → CApiCall (DSt ℚ) ℚ,
        (∀ r, exS.OnGrid r → pxpotri true true (lapackOf posQ) ⟨2, 3⟩ r 'l' 3 ((call r).out (mid r)) 1 1 (exS.desc 0 3 3 5) = some (call' r)) ∧
        AlwaysEnds (Conf.init (fun r => if r ∈ exS.procs then (call' r).prog else []) fun r => (call' r).st) fun fin => (call' ⟨1, 2⟩).out (fin ⟨1, 2⟩) 5 = 77 := by
  obtain ⟨call, h1, k, f, h2, ⟨call', g1, k', f', g2, ⟨g3, g4⟩, g5⟩, h5⟩ := C62_factorize_and_invert (lapack_spec posQ) positiveQ (S := exS) (by decide) (c := 'l') (u := .Lower)
    (Or.inl ⟨rfl, Or.inr rfl⟩) true true (lld := fun _ => 5) exLld 0 3 3 exBuf exChol
  refine ⟨call, h1, k, f, h2, ⟨call', g1, k', f', g2, ?_, g5⟩, h5⟩
  show _ = (77 : ℚ)
  rw [g4 ⟨1, 2⟩ (by decide) 5 (by decide)]
  simp [exBuf]
end example_

end DLAF
