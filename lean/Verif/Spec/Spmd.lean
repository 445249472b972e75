import Verif.Model.Spmd
import Verif.Spec.Dist
/-
Specification of distributed runs: the grid of processes, the distribution of a matrix over it, and what it means that
every schedule of the processes leads to the same end.
-/
namespace DLAF

/-- Distributions with one tile per block. -/
structure Tiled (p : Params) : Prop where
  valid : p.Valid
  block : p.block = p.tile

instance (p : Params) : Decidable (Tiled p) := decidable_of_iff (p.Valid ∧ p.block = p.tile) ⟨fun h => ⟨h.1, h.2⟩, fun h => ⟨h.valid, h.block⟩⟩

/-- Distributions without offset and with one tile per block. -/
structure Plain (p : Params) : Prop extends Tiled p where
  offset : p.offset = 0

instance {p : Params} : Coe (Plain p) (Tiled p) := ⟨fun h => h.toTiled⟩

instance (p : Params) : Decidable (Plain p) :=
  decidable_of_iff (p.Valid ∧ p.offset = 0 ∧ p.block = p.tile)
    ⟨fun h => ⟨⟨h.1, h.2.2⟩, h.2.1⟩, fun h => ⟨h.valid, h.offset, h.block⟩⟩

/-- The distribution of a matrix: rows and columns (the `rank` entries are not used). -/
structure Params2 where
  row : Params
  col : Params

def Params2.get (P : Params2) : Coord → Params
  | .Row => P.row
  | .Col => P.col

/-- The distribution object on process `r`. -/
def Params2.on (P : Params2) (r : Coord2) : Distribution := ⟨(P.row.onRank r.row).dist, (P.col.onRank r.col).dist⟩

/-- The distribution along coordinate `c` seen by process `r`. -/
abbrev Params2.at' (P : Params2) (c : Coord) (r : Coord2) : Params := (P.get c).onRank (r.get c)

/-- The processes of the grid. -/
def Params2.ranks (P : Params2) : List Coord2 :=
  (List.range P.col.grid.toNat).flatMap fun j : Nat => (List.range P.row.grid.toNat).map fun i : Nat => ⟨(i : Int), (j : Int)⟩

/-- Every schedule ends, always after the same number of steps and in the same state, and that state satisfies `Q`.
In particular no schedule aborts or deadlocks. -/
def AlwaysEnds {S V : Type*} (c : Conf S V) (Q : (Coord2 → S) → Prop) : Prop :=
  ∃ n f, Conf.Done f ∧ Q f.st ∧ ∀ m a, Conf.Steps m c a → ∃ k, n = m + k ∧ Conf.Steps k a f

/-- All members of a communicator perform the same sequence of collective operations on it. -/
def SameCollectives {S V : Type*} (G : List Coord2) (prog : Coord2 → List (Instr S V)) : Prop :=
  ∀ c, ∀ r ∈ G, ∀ s ∈ G, c.has r = true → c.has s = true → sigs c (prog r) = sigs c (prog s)

end DLAF
