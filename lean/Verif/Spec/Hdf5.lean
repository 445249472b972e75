import Verif.Model.Hdf5
import Verif.Spec.DistElems
import Verif.Spec.Data
/- Specification: a matrix of scalars in the memory of the processes of a grid, and in a dataset. -/
namespace DLAF

/-- The processes (memory set-up `mem r`, contents `buf r`) store the matrix `A`: scalar `c` of element `(i, j)` is in the
memory of the owner, at the address of the local position of the element. -/
def StoresScalars {E : Type} (P : Params2) (comps : Int) (mem : Coord2 → MatrixMem) (buf : Coord2 → ScalarAddr → E)
    (A : Int → Int → Int → E) : Prop :=
  ∀ i j c, (0 ≤ i ∧ i < P.row.size) → (0 ≤ j ∧ j < P.col.size) → (0 ≤ c ∧ c < comps) →
    let r : Coord2 := ⟨P.row.owner i, P.col.owner j⟩
    ∃ a, (mem r).elemAddr (P.on r) (P.row.localPos i) (P.col.localPos j) = some a ∧
      buf r (a.1, a.2 * comps + c) = A i j c

/-- The dataset is the matrix `A` of `rows` x `cols` elements stored by columns. -/
def IsMatrix {E : Type} (ds : Dataset E) (rows cols comps : Int) (A : Int → Int → Int → E) : Prop :=
  ds.dims = ⟨cols, rows, comps⟩ ∧
  ∀ i j c, (0 ≤ i ∧ i < rows) → (0 ≤ j ∧ j < cols) → (0 ≤ c ∧ c < comps) →
    ds.data ((j * rows + i) * comps + c) = A i j c

/-- `ds` is what the file contains after all processes `ranks` have stored `parts r`, in any order. -/
def WrittenBy {E : Type} (ds : Dataset E) (ranks : List Coord2) (parts : Coord2 → List (Int × E)) : Prop :=
  ∃ order before, order.Perm (ranks.flatMap parts) ∧ ds.data = storeAll order before

end DLAF
