import Verif.Model.Index
import Mathlib.Data.Finset.Range
import Mathlib.Data.Finset.Card
/-
Model of src/communication/communicator_grid.cpp (construction of a 2D process grid) and of the queries
of include/dlaf/communication/communicator_grid.h.

`MPI_Comm_split(comm, colour, key)` belongs to MPI; its contract (trusted): processes with equal colour
form a new communicator, numbered by increasing key, ties broken by the rank in the old communicator;
processes with colour `MPI_UNDEFINED` get no communicator.
-/
namespace DLAF

/-- MPI contract: members of the new communicator of process `r` (`P` processes in the old one). -/
def splitMembers (P : Nat) (colour : Nat → Option Int) (r : Nat) : Finset Nat :=
  (Finset.range P).filter fun r' => colour r' ≠ none ∧ colour r' = colour r

/-- MPI contract: size of the new communicator of process `r`. -/
def splitSize (P : Nat) (colour : Nat → Option Int) (r : Nat) : Nat := (splitMembers P colour r).card

/-- MPI contract: rank of process `r` in its new communicator. -/
def splitRank (P : Nat) (colour : Nat → Option Int) (key : Nat → Int) (r : Nat) : Nat :=
  ((splitMembers P colour r).filter fun r' => key r' < key r ∨ (key r' = key r ∧ r' < r)).card

/-- communicator_pipeline.h:26 `internal::FULL_COMMUNICATOR_ORDER` -/
def fullCommunicatorOrder : Ordering2 := .RowMajor

/-- What a process knows after `CommunicatorGrid` is constructed: position in the grid, and its rank and
the size of the full, row and column communicators. -/
structure GridView where
  position : Coord2
  gridSize : Coord2
  fullRank : Nat
  fullSize : Nat
  rowRank : Nat
  rowSize : Nat
  colRank : Nat
  colSize : Nat
  /-- processes (ranks of the input communicator) in the row and column communicator -/
  rowMembers : Finset Nat
  colMembers : Finset Nat
deriving DecidableEq

/-- communicator_grid.cpp:32 `is_in_grid` -/
def isInGrid (nrows ncols : Int) (r : Nat) : Bool := (r : Int) < nrows * ncols

/-- communicator_grid.cpp:41 `position_` -/
def gridPosition (o : Ordering2) (nrows ncols : Int) (r : Nat) : Coord2 :=
  computeCoords o r ⟨nrows, ncols⟩

/-- colour of the split for the full communicator, communicator_grid.cpp:49 -/
def fullColour (nrows ncols : Int) (r : Nat) : Option Int :=
  if isInGrid nrows ncols r then some 0 else none
/-- `index_row` (communicator_grid.cpp:34, 44): colour of the split for the row communicator (line 50) -/
def rowColour (o : Ordering2) (nrows ncols : Int) (r : Nat) : Option Int :=
  if isInGrid nrows ncols r then some (gridPosition o nrows ncols r).row else none
/-- `index_col` (communicator_grid.cpp:35, 45): colour of the split for the column communicator (line 51) -/
def colColour (o : Ordering2) (nrows ncols : Int) (r : Nat) : Option Int :=
  if isInGrid nrows ncols r then some (gridPosition o nrows ncols r).col else none
/-- `key_full` (communicator_grid.cpp:42-43; irrelevant for processes outside the grid) -/
def fullKey (o : Ordering2) (nrows ncols : Int) (r : Nat) : Int :=
  computeLinearIndex fullCommunicatorOrder (gridPosition o nrows ncols r) ⟨nrows, ncols⟩

/-- communicator_grid.cpp:40-60: the object on process `r` inside the grid. -/
def gridView (o : Ordering2) (nrows ncols : Int) (P r : Nat) : GridView where
  position := gridPosition o nrows ncols r
  gridSize := ⟨nrows, ncols⟩
  fullRank := splitRank P (fullColour nrows ncols) (fullKey o nrows ncols) r
  fullSize := splitSize P (fullColour nrows ncols) r
  rowRank := splitRank P (rowColour o nrows ncols) (fun r => r) r
  rowSize := splitSize P (rowColour o nrows ncols) r
  colRank := splitRank P (colColour o nrows ncols) (fun r => r) r
  colSize := splitSize P (colColour o nrows ncols) r
  rowMembers := splitMembers P (rowColour o nrows ncols) r
  colMembers := splitMembers P (colColour o nrows ncols) r

/-- communicator_grid.cpp:28-61: the constructor, on process `r` of a communicator of `P` processes.
`none`: assertion failure (line 30).  `some none`: the process is not in the grid (the object stays
empty).  The communicator pipelines made from clones (same ranks) are not included. -/
def makeGrid (o : Ordering2) (nrows ncols : Int) (P r : Nat) : Option (Option GridView) :=
  if nrows * ncols ≤ (P : Int) then
    if isInGrid nrows ncols r then some (some (gridView o nrows ncols P r)) else some none
  else none

/-- communicator_grid.h:58-61 `rankFullCommunicator` (also communicator_pipeline.h:85-88) -/
def rankFullCommunicator (gridSize index : Coord2) : Int :=
  computeLinearIndex fullCommunicatorOrder index gridSize

end DLAF
