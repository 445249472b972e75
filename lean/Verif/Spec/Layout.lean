import Verif.Model.Memory
import Verif.Spec.Dist
/- Specification vocabulary for memory layouts. -/
namespace DLAF

/-- (i, j) is a local element of the matrix on this process. -/
def Distribution.LocalElem (d : Distribution) (i j : Int) : Prop :=
  (0 ≤ i ∧ i < d.row.localSize) ∧ (0 ≤ j ∧ j < d.col.localSize)

instance (d : Distribution) (i j : Int) : Decidable (d.LocalElem i j) := by
  unfold Distribution.LocalElem; infer_instance

/-- Every local element has an address inside its allocation and no two share one. -/
structure MemorySound (d : Distribution) (m : MatrixMem) : Prop where
  inside : ∀ i j, d.LocalElem i j →
    ∃ a, m.elemAddr d i j = some a ∧ 0 ≤ a.2 ∧ a.2 < m.chunkSize a.1
  injective : ∀ i j i' j', d.LocalElem i j → d.LocalElem i' j' →
    m.elemAddr d i j = m.elemAddr d i' j' → i = i' ∧ j = j'

/-- The 2D distribution built from the parameters of the two coordinates. -/
def dist2 (p q : Params) : Distribution := ⟨p.dist, q.dist⟩

/-! ScaLAPACK TOOLS routines, with 0-based indices (the Fortran routines are 1-based:
`INDXG2P(ig) = mod(isrc + (ig-1)/nb, np)`, `INDXG2L(ig) = nb*((ig-1)/(nb*np)) + mod(ig-1,nb) + 1`,
`NUMROC` as below). -/

/-- process owning global index `i` -/
def indxg2p (i nb isrc np : Nat) : Nat := (isrc + i / nb) % np

/-- local index of global index `i` on its owner -/
def indxg2l (i nb np : Nat) : Nat := nb * (i / (nb * np)) + i % nb

/-- NUMROC(N, NB, IPROC, ISRCPROC, NPROCS) -/
def numroc (n nb iproc isrc np : Nat) : Nat :=
  let mydist := (np + iproc - isrc) % np
  let nblocks := n / nb
  let numroc := (nblocks / np) * nb
  let extrablks := nblocks % np
  if mydist < extrablks then numroc + nb
  else if mydist = extrablks then numroc + n % nb
  else numroc

end DLAF
