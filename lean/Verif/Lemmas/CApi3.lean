import Verif.Lemmas.CApi2
import Verif.Props.DistCholesky
import Verif.Props.DistAssemble
import Verif.Props.SubDistribution
/- Lemmas for C62: the calls of the ScaLAPACK interface in terms of the distributed algorithms. -/
namespace DLAF
variable {K : Type*} [Field K] [StarRing K]

namespace ScaMat
variable {S : ScaMat}

theorem makeLayout_eq (hS : S.Legal) {r : Coord2} (hr : r ∈ S.params.ranks) (heavy : Bool) (ld : Int) :
    makeLayout heavy ⟨S.npr, S.npc⟩ r ⟨S.n, S.n, S.mb, S.mb, S.rsrc, S.csrc, 0, 0, ld⟩ = some (S.params.on r) := by
  have v1 := (ax1 hS hr).plain.valid
  have v2 := (ax2 hS hr).plain.valid
  have hmb := hS.1
  have k : ∀ {size block tile grid rank src : Int}, (Params.mk size block tile grid rank src 0).Valid → 0 ≤ tile →
      Dist1.accepts heavy size block tile grid rank src 0 = true := by
    intro size block tile grid rank src hv ht
    cases heavy
    · exact (C39_release_accepts_partial _ _ _ _ _ _ _ (le_refl 0) ht).2 hv
    · exact (C39_accepts_iff_valid_partial _ _ _ _ _ _ _ (le_refl 0)).2 hv
  have a1 : Dist1.accepts heavy S.n S.mb S.mb S.npr r.row S.rsrc 0 = true := k v1 (by omega)
  have a2 : Dist1.accepts heavy S.n S.mb S.mb S.npc r.col S.csrc 0 = true := k v2 (by omega)
  unfold makeLayout Distribution.create
  dsimp only
  rw [a1, a2]
  rfl

theorem checks (r : Coord2) : capiChecks ⟨S.npr, S.npc⟩ r (S.params.on r) := ⟨rfl, rfl, ⟨rfl, rfl⟩, ⟨rfl, rfl⟩, rfl, rfl⟩

theorem uploChar {c : Char} {u : Uplo} (h : UploChar c u) : charToUplo c = some u := by
  rcases h with ⟨rfl, rfl | rfl⟩ | ⟨rfl, rfl | rfl⟩ <;> decide

theorem pxpotrf_eq (hS : S.Legal) {r : Coord2} (hr : r ∈ S.params.ranks) (heavy dbg : Bool) (lp : Lapack K) {c : Char} {u : Uplo} (hc : UploChar c u) (ctx m n : Int)
    (buf : Int → K) {lld : Nat} {mem : MatrixMem} (hm : setUpPreallocated (S.params.on r) lld = some mem) :
    pxpotrf heavy dbg lp ⟨S.npr, S.npc⟩ r c S.n buf 1 1 (S.desc ctx m n lld) = (distCholeskyInit u (S.params.on r) (loadTile mem (S.params.on r) buf)).map fun st =>
      ⟨st, distCholesky dbg lp u (S.params.on r), fun s => storeTiles mem (S.params.on r) s.mat buf⟩ := by
  unfold pxpotrf
  rw [if_neg (by simp [desc])]
  have e : makeDescriptor S.n S.n 1 1 (S.desc ctx m n lld) = some ⟨S.n, S.n, S.mb, S.mb, S.rsrc, S.csrc, 0, 0, lld⟩ := rfl
  rw [e, Option.bind_some, if_neg (by simp), makeLayout_eq hS hr, Option.bind_some]
  dsimp only
  rw [hm, Option.bind_some, uploChar hc, Option.bind_some, if_neg (not_not.2 (checks r))]

theorem pxpotri_eq (hS : S.Legal) {r : Coord2} (hr : r ∈ S.params.ranks) (heavy dbg : Bool) (lp : Lapack K) {c : Char} {u : Uplo} (hc : UploChar c u) (ctx m n : Int)
    (buf : Int → K) {lld : Nat} {mem : MatrixMem} (hm : setUpPreallocated (S.params.on r) lld = some mem) :
    pxpotri heavy dbg lp ⟨S.npr, S.npc⟩ r c S.n buf 1 1 (S.desc ctx m n lld) = (distTriInvInit u (S.params.on r) (loadTile mem (S.params.on r) buf)).map fun st =>
      ⟨st, distInverseFromCholesky lp u dbg (S.params.on r), fun s => storeTiles mem (S.params.on r) (s.mat 0) buf⟩ := by
  unfold pxpotri
  rw [if_neg (by simp [desc])]
  have e : makeDescriptor S.n S.n 1 1 (S.desc ctx m n lld) = some ⟨S.n, S.n, S.mb, S.mb, S.rsrc, S.csrc, 0, 0, lld⟩ := rfl
  rw [e, Option.bind_some, if_neg (by simp), makeLayout_eq hS hr, Option.bind_some]
  dsimp only
  rw [hm, Option.bind_some, uploChar hc, Option.bind_some, if_neg (not_not.2 (checks r))]

/-- What the buffers hold when the tiles of every process are those of a matrix whose elements are `F` in the triangle and those of the buffers elsewhere. -/
theorem out_spec (hS : S.Legal) {lld : Coord2 → Nat} (hl : ∀ r, S.OnGrid r → S.LldOk r (lld r)) {mem : Coord2 → MatrixMem}
    (hm : ∀ r ∈ S.params.ranks, setUpPreallocated (S.params.on r) (lld r) = some (mem r)) {buf : Coord2 → Int → K} {mat : Coord2 → Coord2 → Blk K} {m : Tiles K}
    (hh : ∀ r ∈ S.params.ranks, HoldsTiles S.params S.params.nt S.params.nt r m (mat r)) {F : Nat → Nat → K}
    (hF : HoldsOn m S.params.row.tileSizes S.params.row.tileSizes S.params.nt S.params.nt F fun _ _ => True) {sel : Nat → Nat → Prop}
    (hs : ∀ x < S.n, ∀ y < S.n, ¬ sel x y → F x y = S.elem lld buf x y) :
    (∀ x < S.n, ∀ y < S.n, S.elem lld (fun r => storeTiles (mem r) (S.params.on r) (mat r) (buf r)) x y = F x y) ∧
    ∀ r, S.OnGrid r → ∀ a, (∀ x < S.n, ∀ y < S.n, sel x y → S.owner x y = r → a ≠ S.pos (lld r) x y) →
      storeTiles (mem r) (S.params.on r) (mat r) (buf r) a = buf r a := by
  have key := fun r (hr : r ∈ S.params.ranks) => store_spec hS hr (by have := hl r (mem_ranks.1 hr); unfold LldOk at this; omega) (hm r hr) (hh r hr) hF (buf r)
    (pos_inj hS hr (hl r (mem_ranks.1 hr)))
  constructor
  · intro x hx y hy
    exact (key _ (owner_onGrid hS x y)).1 x hx y hy rfl
  · intro r hr a ha
    obtain ⟨k1, k2⟩ := key r (mem_ranks.2 hr)
    by_cases h : ∃ x < S.n, ∃ y < S.n, S.owner x y = r ∧ a = S.pos (lld r) x y
    · obtain ⟨x, hx, y, hy, ho, rfl⟩ := h
      rw [k1 x hx y hy ho, hs x hx y hy fun hsel => ha x hx y hy hsel ho rfl]
      unfold elem
      rw [ho]
    · exact k2 a fun x hx y hy ho e => h ⟨x, hx, y, hy, ho, e⟩

end ScaMat

end DLAF
